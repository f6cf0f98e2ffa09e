import Verif.Lemmas.Tree
import Verif.Lemmas.Shapley
import Verif.Spec.LeafGame

namespace Acv

/-! ### grouping -/

instance : Std.Symm (List.Disjoint (α := Nat)) := ⟨fun _ _ h => List.Disjoint.symm h⟩

theorem groupUp_spec (free : List Nat) : ∀ (is : List Nat) (buff : List (List Nat)), is.Nodup →
    buff.Pairwise List.Disjoint → (∀ c ∈ buff, c ≠ []) → (∀ c ∈ buff, ∀ s ∈ c, s ∉ free) →
    (∀ c, c ∈ groupUp free is buff ↔ (∃ i ∈ is, i ∈ free ∧ c = [i]) ∨ (c ∈ buff ∧ ∃ i ∈ is, i ∈ c)) ∧
      (groupUp free is buff).Nodup
  | [], buff, _, _, _, _ => by simp [groupUp]
  | i :: is, buff, hnd, hpd, hne, hfr => by
    have hbn : buff.Nodup := by
      rw [List.nodup_iff_pairwise_ne]
      refine List.Pairwise.imp_of_mem ?_ hpd
      rintro a b ha _ hab rfl
      obtain ⟨s, hs⟩ := List.exists_mem_of_ne_nil a (hne a ha)
      exact hab hs hs
    rw [List.nodup_cons] at hnd
    unfold groupUp
    by_cases hi : i ∈ free
    · rw [if_pos hi]
      obtain ⟨ih1, ih2⟩ := groupUp_spec free is buff hnd.2 hpd hne hfr
      have hno : ∀ c ∈ buff, i ∉ c := fun c hc hic => hfr c hc i hic hi
      constructor
      · intro c
        rw [List.mem_cons, ih1]
        constructor
        · rintro (rfl | ⟨k, hk, hkf, rfl⟩ | ⟨hc, k, hk, hkc⟩)
          · exact Or.inl ⟨i, by simp, hi, rfl⟩
          · exact Or.inl ⟨k, by simp [hk], hkf, rfl⟩
          · exact Or.inr ⟨hc, k, by simp [hk], hkc⟩
        · rintro (⟨k, hk, hkf, rfl⟩ | ⟨hc, k, hk, hkc⟩)
          · rcases List.mem_cons.mp hk with rfl | hk
            · exact Or.inl rfl
            · exact Or.inr (Or.inl ⟨k, hk, hkf, rfl⟩)
          · rcases List.mem_cons.mp hk with rfl | hk
            · exact absurd hkc (hno c hc)
            · exact Or.inr (Or.inr ⟨hc, k, hk, hkc⟩)
      · rw [List.nodup_cons]
        refine ⟨?_, ih2⟩
        rw [ih1]
        rintro (⟨k, hk, _, he⟩ | ⟨hc, _⟩)
        · have : i = k := by simpa using he
          exact hnd.1 (this ▸ hk)
        · exact hno _ hc (by simp)
    · rw [if_neg hi]
      cases hf : buff.find? (fun c => decide (i ∈ c)) with
      | none =>
        have hno : ∀ c ∈ buff, i ∉ c := by
          intro c hc; have := List.find?_eq_none.mp hf c hc; simpa using this
        obtain ⟨ih1, ih2⟩ := groupUp_spec free is buff hnd.2 hpd hne hfr
        refine ⟨?_, ih2⟩
        intro c
        simp only
        rw [ih1]
        constructor
        · rintro (⟨k, hk, hkf, rfl⟩ | ⟨hc, k, hk, hkc⟩)
          · exact Or.inl ⟨k, by simp [hk], hkf, rfl⟩
          · exact Or.inr ⟨hc, k, by simp [hk], hkc⟩
        · rintro (⟨k, hk, hkf, rfl⟩ | ⟨hc, k, hk, hkc⟩)
          · rcases List.mem_cons.mp hk with rfl | hk
            · exact absurd hkf hi
            · exact Or.inl ⟨k, hk, hkf, rfl⟩
          · rcases List.mem_cons.mp hk with rfl | hk
            · exact absurd hkc (hno c hc)
            · exact Or.inr ⟨hc, k, hk, hkc⟩
      | some c0 =>
        have hc0 : c0 ∈ buff := List.mem_of_find?_eq_some hf
        have hic0 : i ∈ c0 := by simpa using List.find?_some hf
        have hsub : ∀ c, c ∈ buff.erase c0 ↔ c ≠ c0 ∧ c ∈ buff := fun c => hbn.mem_erase_iff
        have hdis : ∀ c ∈ buff, c ≠ c0 → i ∉ c := by
          intro c hc hcc hic
          have := hpd.forall hc hc0 hcc
          exact this hic hic0
        obtain ⟨ih1, ih2⟩ := groupUp_spec free is (buff.erase c0) hnd.2 (hpd.sublist List.erase_sublist)
          (fun c hc => hne c ((hsub c).mp hc).2) (fun c hc => hfr c ((hsub c).mp hc).2)
        simp only
        constructor
        · intro c
          rw [List.mem_cons, ih1]
          constructor
          · rintro (rfl | ⟨k, hk, hkf, rfl⟩ | ⟨hc, k, hk, hkc⟩)
            · exact Or.inr ⟨hc0, i, by simp, hic0⟩
            · exact Or.inl ⟨k, by simp [hk], hkf, rfl⟩
            · exact Or.inr ⟨((hsub c).mp hc).2, k, by simp [hk], hkc⟩
          · rintro (⟨k, hk, hkf, rfl⟩ | ⟨hc, k, hk, hkc⟩)
            · rcases List.mem_cons.mp hk with rfl | hk
              · exact absurd hkf hi
              · exact Or.inr (Or.inl ⟨k, hk, hkf, rfl⟩)
            · by_cases hcc : c = c0
              · exact Or.inl hcc
              · rcases List.mem_cons.mp hk with rfl | hk
                · exact absurd hkc (hdis c hc hcc)
                · exact Or.inr (Or.inr ⟨(hsub c).mpr ⟨hcc, hc⟩, k, hk, hkc⟩)
        · rw [List.nodup_cons]
          refine ⟨?_, ih2⟩
          rw [ih1]
          rintro (⟨k, _, hkf, rfl⟩ | ⟨hc, _⟩)
          · have : i = k := by simpa using hic0
            exact hi (this ▸ hkf)
          · exact ((hsub _).mp hc).1 rfl

theorem mem_playerSet {m : Nat} {C : List (List Nat)} {c : List Nat} :
    c ∈ playerSet m C ↔ (c ∈ C ∧ c ≠ []) ∨ ∃ i < m, (∀ g ∈ C, i ∉ g) ∧ c = [i] := by
  simp only [playerSet, Finset.mem_union, List.mem_toFinset, List.mem_filter, decide_eq_true_eq, Finset.mem_image,
    Finset.mem_filter, Finset.mem_range, ne_eq]
  constructor
  · rintro (h | ⟨i, ⟨h1, h2⟩, rfl⟩)
    · exact Or.inl h
    · exact Or.inr ⟨i, h1, h2, rfl⟩
  · rintro (h | ⟨i, h1, h2, rfl⟩)
    · exact Or.inl h
    · exact Or.inr ⟨i, ⟨h1, h2⟩, rfl⟩

theorem leafPlayers_spec {m : Nat} {C : List (List Nat)} (hC : ValidGroups m C) {vars : List Nat} (hnd : vars.Nodup)
    (hlt : ∀ i ∈ vars, i < m) :
    (leafPlayersCy m C vars).Nodup ∧
      ∀ c, c ∈ leafPlayersCy m C vars ↔ c ∈ playerSet m C ∧ ∃ i ∈ vars, i ∈ c := by
  rcases hC with rfl | ⟨hne, hg, hpd⟩
  · have h0 : hasGroups [[]] = false := rfl
    simp only [leafPlayersCy, h0, mem_playerSet, Bool.false_eq_true, if_false]
    refine ⟨hnd.map (fun a b h => by simpa using h), fun c => ?_⟩
    simp only [List.mem_map, List.mem_singleton]
    constructor
    · rintro ⟨i, hi, rfl⟩
      exact ⟨Or.inr ⟨i, hlt i hi, by simp, rfl⟩, i, hi, by simp⟩
    · rintro ⟨⟨rfl, h⟩ | ⟨k, _, _, rfl⟩, i, hi, hic⟩
      · exact absurd rfl h
      · simp only [List.mem_singleton] at hic; subst hic; exact ⟨i, hi, rfl⟩
  · obtain ⟨g0, C', rfl⟩ := List.exists_cons_of_ne_nil hne
    have h0 : hasGroups (g0 :: C') = true := by
      have := (hg g0 (by simp)).1
      simp [hasGroups, this]
    simp only [leafPlayersCy, h0, if_true]
    have hfree : ∀ i, i ∈ freeCols m (g0 :: C') ↔ i < m ∧ ∀ g ∈ g0 :: C', i ∉ g := by
      intro i; simp only [freeCols, List.mem_filter, List.mem_range, decide_eq_true_eq, List.mem_flatten, not_exists, not_and]
    obtain ⟨h1, h2⟩ := groupUp_spec (freeCols m (g0 :: C')) vars (g0 :: C') hnd hpd (fun c hc => (hg c hc).1)
      (fun c hc s hs hf => ((hfree s).mp hf).2 c hc hs)
    refine ⟨h2, fun c => ?_⟩
    rw [h1, mem_playerSet]
    constructor
    · rintro (⟨i, hi, hif, rfl⟩ | ⟨hc, hx⟩)
      · have := (hfree i).mp hif
        exact ⟨Or.inr ⟨i, this.1, this.2, rfl⟩, i, hi, by simp⟩
      · exact ⟨Or.inl ⟨hc, (hg c hc).1⟩, hx⟩
    · rintro ⟨⟨hc, _⟩ | ⟨k, hk, hkn, rfl⟩, i, hi, hic⟩
      · exact Or.inr ⟨hc, i, hi, hic⟩
      · simp only [List.mem_singleton] at hic; subst hic
        exact Or.inl ⟨i, hi, (hfree i).mpr ⟨hk, hkn⟩, rfl⟩

theorem playerSet_lt {m : Nat} {C : List (List Nat)} (hC : ValidGroups m C) {c : List Nat} (hc : c ∈ playerSet m C) :
    c ≠ [] ∧ c.Nodup ∧ ∀ s ∈ c, s < m := by
  rw [mem_playerSet] at hc
  rcases hc with ⟨h1, h2⟩ | ⟨i, hi, _, rfl⟩
  · rcases hC with rfl | ⟨_, hg, _⟩
    · simp at h1; exact absurd h1 h2
    · exact hg c h1
  · simp [hi]

theorem playerSet_disjoint {m : Nat} {C : List (List Nat)} (hC : ValidGroups m C) {c c' : List Nat}
    (hc : c ∈ playerSet m C) (hc' : c' ∈ playerSet m C) {s : Nat} (hs : s ∈ c) (hs' : s ∈ c') : c = c' := by
  rw [mem_playerSet] at hc hc'
  rcases hc with ⟨h1, h2⟩ | ⟨i, hi, hin, rfl⟩ <;> rcases hc' with ⟨h1', h2'⟩ | ⟨i', hi', hin', rfl⟩
  · rcases hC with rfl | ⟨_, hg, hpd⟩
    · simp at h1; exact absurd h1 h2
    · by_contra hne
      exact (hpd.forall h1 h1' hne) hs hs'
  · simp only [List.mem_singleton] at hs'; subst hs'; exact absurd hs (hin' c h1)
  · simp only [List.mem_singleton] at hs; subst hs; exact absurd hs' (hin c' h1')
  · simp only [List.mem_singleton] at hs hs'; rw [← hs, ← hs']

theorem playerSet_cover {m : Nat} {C : List (List Nat)} {j : Nat} (hj : j < m) :
    ∃ g ∈ playerSet m C, j ∈ g := by
  by_cases h : ∃ g ∈ C, j ∈ g
  · obtain ⟨g, hg, hjg⟩ := h
    exact ⟨g, mem_playerSet.mpr (Or.inl ⟨hg, List.ne_nil_of_mem hjg⟩), hjg⟩
  · exact ⟨[j], mem_playerSet.mpr (Or.inr ⟨j, hj, fun g hg hjg => h ⟨g, hg, hjg⟩, rfl⟩), by simp⟩

theorem playerSet_card {m : Nat} {C : List (List Nat)} (hC : ValidGroups m C) : (playerSet m C).card ≤ m := by
  have : (playerSet m C).card ≤ (Finset.range m).card := by
    apply Finset.card_le_card_of_injOn (fun g => g.headD 0)
    · intro g hg
      obtain ⟨h1, _, h3⟩ := playerSet_lt hC hg
      obtain ⟨a, l, rfl⟩ := List.exists_cons_of_ne_nil h1
      simpa using h3 a (by simp)
    · intro g hg g' hg' he
      obtain ⟨h1, _, _⟩ := playerSet_lt hC hg
      obtain ⟨h1', _, _⟩ := playerSet_lt hC hg'
      obtain ⟨a, l, rfl⟩ := List.exists_cons_of_ne_nil h1
      obtain ⟨a', l', rfl⟩ := List.exists_cons_of_ne_nil h1'
      simp only [List.headD_cons] at he
      exact playerSet_disjoint hC hg hg' (s := a) (by simp) (by simp [he])
  simpa using this

theorem playersCy_spec {m : Nat} {C : List (List Nat)} (hC : ValidGroups m C) :
    (playersCy m C).Nodup ∧ ∀ c, c ∈ playersCy m C ↔ c ∈ playerSet m C := by
  have h := leafPlayers_spec hC (vars := List.range m) List.nodup_range (by simp)
  have e : playersCy m C = leafPlayersCy m C (List.range m) := rfl
  rw [e]
  refine ⟨h.1, fun c => ?_⟩
  rw [h.2]
  constructor
  · exact fun hh => hh.1
  · intro hc
    obtain ⟨h1, _, h3⟩ := playerSet_lt hC hc
    obtain ⟨s, hs⟩ := List.exists_mem_of_ne_nil c h1
    exact ⟨hc, s, List.mem_range.mpr (h3 s hs), hs⟩

/-! ### subsets by bit masks -/

theorem sum_range_two_mul (g : Nat → ℚ) (n : Nat) :
    ((List.range (2 * n)).map g).sum = ((List.range n).map fun c => g (2 * c) + g (2 * c + 1)).sum := by
  induction n with
  | zero => simp
  | succ n ih =>
    have : 2 * (n + 1) = 2 * n + 1 + 1 := by omega
    rw [this, List.range_succ, List.range_succ, List.range_succ]
    simp only [List.map_append, List.sum_append, ih, List.map_cons, List.map_nil, List.sum_cons, List.sum_nil]
    ring

theorem sum_map_add {α : Type} (l : List α) (f g : α → ℚ) :
    (l.map fun a => f a + g a).sum = (l.map f).sum + (l.map g).sum := by
  induction l with
  | nil => simp
  | cons a l ih => simp only [List.map_cons, List.sum_cons, ih]; ring

theorem mask_sum {α : Type} [DecidableEq α] : ∀ (l : List α), l.Nodup → ∀ (f : List α → ℚ) (F : Finset α → ℚ),
    (∀ sel, sel.Sublist l → f sel = F sel.toFinset) →
    ((List.range (2 ^ l.length)).map fun c => f (maskSel l c)).sum = ∑ S ∈ l.toFinset.powerset, F S
  | [], _, f, F, h => by simp [maskSel, h [] (List.Sublist.refl _)]
  | a :: l, hnd, f, F, h => by
    rw [List.nodup_cons] at hnd
    rw [List.length_cons, Nat.pow_succ, Nat.mul_comm, sum_range_two_mul]
    have e : ∀ c, f (maskSel (a :: l) (2 * c)) + f (maskSel (a :: l) (2 * c + 1))
        = f (maskSel l c) + f (a :: maskSel l c) := by
      intro c
      have h1 : (2 * c + 1) / 2 = c := by omega
      have h2 : (2 * c + 1) % 2 = 1 := by omega
      have h3 : 2 * c / 2 = c := by omega
      simp [maskSel, h1, h2, h3]
    simp only [e]
    rw [sum_map_add, mask_sum l hnd.2 f F (fun sel hs => h sel (hs.cons a)),
      mask_sum l hnd.2 (fun sel => f (a :: sel)) (fun S => F (insert a S)) (by
        intro sel hs; rw [h (a :: sel) (hs.cons_cons a), List.toFinset_cons]),
      List.toFinset_cons, Finset.sum_powerset_insert (by simpa using hnd.1)]

/-! ### shares -/

theorem sat_iff {r : Rect} {S : List Nat} {z : Row} : sat r S z = true ↔
    ∀ s ∈ S, (∀ l, (r s).lo = some l → l < z s) ∧ (∀ h, (r s).hi = some h → z s ≤ h) := by
  simp only [sat, List.all_eq_true, Ival.memOC_iff]

theorem sat_flatten {r : Rect} {sel : List (List Nat)} {z : Row} :
    sat r sel.flatten z = true ↔ AgreesOn r sel.toFinset z := by
  rw [sat_iff]
  simp only [List.mem_flatten, AgreesOn, List.mem_toFinset]
  constructor
  · intro h g hg s hs; exact h s ⟨g, hg, hs⟩
  · rintro h s ⟨g, hg, hs⟩; exact h g hg s hs

theorem sat_range {r : Rect} {m : Nat} {z : Row} : sat r (List.range m) z = true ↔ InBox m r z := by
  rw [sat_iff]; simp only [List.mem_range, InBox]

theorem agreesOn_insert {r : Rect} {S : Finset (List Nat)} {va : List Nat} {z : Row} :
    AgreesOn r (insert va S) z ↔ AgreesOn r S z ∧ sat r va z = true := by
  rw [sat_iff]
  simp only [AgreesOn, Finset.mem_insert, forall_eq_or_imp]
  tauto

open Classical in
theorem cnt_flatten (data : List Row) (r : Rect) (sel : List (List Nat)) :
    cnt data r sel.flatten = (data.filter (fun z => AgreesOn r sel.toFinset z)).length := by
  unfold cnt
  congr 1
  apply List.filter_congr
  intro z _
  rw [Bool.eq_iff_iff, sat_flatten]; simp

open Classical in
theorem cnt_range (data : List Row) (r : Rect) (m : Nat) :
    cnt data r (List.range m) = (data.filter (fun z => InBox m r z)).length := by
  unfold cnt
  congr 1
  apply List.filter_congr
  intro z _
  rw [Bool.eq_iff_iff, sat_range]; simp

end Acv

namespace Acv

open Classical in
theorem cyTerm_eq {m : Nat} {data : List Row} (r : Rect) (x : Row) (va : List Nat)
    (rest : List (List Nat)) (counter : Nat) :
    cyTerm m data r x va rest counter =
      (coefZero m (maskSel rest counter).length + coefLoop m rest.length (maskSel rest counter).length) *
        (leafShare m data r x (insert va (maskSel rest counter).toFinset)
          - leafShare m data r x (maskSel rest counter).toFinset) := by
  unfold cyTerm
  simp only
  generalize maskSel rest counter = sel
  have hsi : ((data.filter (fun z => sat r sel.flatten z && sat r va z)).length : ℚ)
      = (data.filter (fun z => AgreesOn r (insert va sel.toFinset) z)).length := by
    congr 2
    apply List.filter_congr
    intro z _
    rw [Bool.eq_iff_iff, Bool.and_eq_true, sat_flatten]
    simp [agreesOn_insert]
  have hx : (sat r sel.flatten x && sat r va x) = decide (AgreesOn r (insert va sel.toFinset) x) := by
    rw [Bool.eq_iff_iff, Bool.and_eq_true, sat_flatten]
    simp [agreesOn_insert]
  have hx' : sat r sel.flatten x = decide (AgreesOn r sel.toFinset x) := by
    rw [Bool.eq_iff_iff, sat_flatten]; simp
  rw [hsi, hx, cnt_flatten, cnt_range]
  congr 2
  · unfold leafShare
    by_cases ha : AgreesOn r (insert va sel.toFinset) x
    · simp only [ha, decide_true, if_true, one_mul]
      split
      · rfl
      · rename_i h; rw [not_not.mp h, div_zero]
    · simp only [ha, decide_false, if_false, Bool.false_eq_true, zero_mul, zero_div, ite_self]
  · by_cases h0 : sel.flatten.length = 0
    · rw [if_pos h0]
      have hnil : sel.flatten = [] := List.eq_nil_of_length_eq_zero h0
      have hall : ∀ z, AgreesOn r sel.toFinset z := by
        intro z; rw [← sat_flatten, hnil]; rfl
      unfold leafShare
      rw [if_pos (hall x)]
      congr 2
      rw [List.filter_eq_self.mpr]
      intro z _; simpa using hall z
    · rw [if_neg h0, hx']
      unfold leafShare
      by_cases ha : AgreesOn r sel.toFinset x
      · simp only [ha, decide_true, if_true, one_mul]
        split
        · rfl
        · rename_i h; rw [not_not.mp h, div_zero]
      · simp only [ha, decide_false, if_false, Bool.false_eq_true, zero_mul, zero_div, ite_self]

/-- columns of a leaf of a well-formed tree -/
theorem leafCols_spec {t : TreeArr} {d : Nat} (h : WellFormed t d) {ℓ : Nat} (hℓ : ℓ ∈ t.leafIdx) :
    (t.leafCols ℓ).Nodup ∧ (∀ i ∈ t.leafCols ℓ, i < d) ∧ ∀ j, j ∉ t.leafCols ℓ → t.leafRect ℓ j = Ival.all := by
  obtain ⟨b, hb⟩ := h
  have hm := (leafIdx_iff hb _).mp hℓ
  obtain ⟨c, hc, hl, hfd⟩ := leaf_chain hb hm
  have hnn : ∀ f ∈ t.leafVars ℓ, 0 ≤ f ∧ f.toNat < d := by
    intro f hf
    rw [leafVars_iff hb hm] at hf
    obtain ⟨k, p, hk, ha, rfl⟩ := hf
    obtain ⟨s, hs⟩ := hc.of_above hb k p hk ha
    refine ⟨?_, hfd _ hs⟩
    cases ha with
    | refl => simp at hk
    | step hcd _ =>
      apply feature_nonneg hb.enc p ((hb.all p).mpr hcd.1)
      by_contra hneg
      have hleaf := (encodes_leaf_iff hb.enc hb.nodup p ((hb.all p).mpr hcd.1)).mp (by simpa [TreeArr.isLeaf] using hneg)
      have := leaf_children hb.enc hleaf
      rcases hcd.2 with h1 | h1 <;> omega
  refine ⟨?_, ?_, ?_⟩
  · unfold TreeArr.leafCols
    have hnd : (t.leafVars ℓ).Nodup := List.nodup_dedup _
    rw [List.nodup_map_iff_inj_on hnd]
    intro a ha b' hb' he
    have := hnn a ha; have := hnn b' hb'
    omega
  · intro i hi
    obtain ⟨f, hf, rfl⟩ := List.mem_map.mp hi
    exact (hnn f hf).2
  · intro j hj
    apply leafRect_unconstrained hb hm
    intro hmem
    exact hj (List.mem_map.mpr ⟨_, hmem, by simp⟩)

open Classical in
/-- one leaf: the accumulated value over `m` columns is the Shapley value of the leaf share -/
theorem cyLeafPhi_eq {t : TreeArr} {m : Nat} (ht : WellFormed t m) {ℓ : Nat} (hℓ : ℓ ∈ t.leafIdx) {data : List Row}
    {C : List (List Nat)} (hC : ValidGroups m C) (hm : m < ulongMax) (x : Row) {j : Nat}
    {g : List Nat} (hg : g ∈ playerSet m C) (hjg : j ∈ g) :
    cyLeafPhi m data C (t.leafRect ℓ) (t.leafCols ℓ) x j / m
      = shapley (playerSet m C) (leafShare m data (t.leafRect ℓ) x) g := by
  obtain ⟨hnd, hlt, hun⟩ := leafCols_spec ht hℓ
  obtain ⟨hpn, hpm⟩ := playersCy_spec hC
  obtain ⟨hln, hlm⟩ := leafPlayers_spec hC hnd hlt
  -- players that are not in the leaf do not matter
  have hnull : ∀ a ∈ playerSet m C, a ∉ (leafPlayersCy m C (t.leafCols ℓ)).toFinset → ∀ S,
      leafShare m data (t.leafRect ℓ) x (insert a S) = leafShare m data (t.leafRect ℓ) x S := by
    intro a ha hna S
    rw [List.mem_toFinset, hlm] at hna
    have hfree : ∀ z, AgreesOn (t.leafRect ℓ) (insert a S) z ↔ AgreesOn (t.leafRect ℓ) S z := by
      intro z
      rw [agreesOn_insert, sat_iff]
      refine ⟨fun h => h.1, fun h => ⟨h, ?_⟩⟩
      intro s hs
      have : s ∉ t.leafCols ℓ := fun hmem => hna ⟨ha, s, hmem, hs⟩
      rw [hun s this]; simp [Ival.all]
    unfold leafShare
    simp only [hfree]
  -- only the player of column j contributes
  have hone : cyLeafPhi m data C (t.leafRect ℓ) (t.leafCols ℓ) x j =
      if g ∈ leafPlayersCy m C (t.leafCols ℓ) then
        ((List.range (2 ^ ((leafPlayersCy m C (t.leafCols ℓ)).erase g).length)).map fun counter =>
          cyTerm m data (t.leafRect ℓ) x g ((leafPlayersCy m C (t.leafCols ℓ)).erase g) counter).sum
      else 0 := by
    unfold cyLeafPhi
    simp only
    rw [← List.sum_toFinset _ hpn, Finset.sum_eq_single g]
    · have : g.count j = 1 := List.count_eq_one_of_mem (playerSet_lt hC hg).2.1 hjg
      simp only [this, Nat.cast_one, one_mul]
    · intro va hva hne
      rw [List.mem_toFinset, hpm] at hva
      have : va.count j = 0 := List.count_eq_zero_of_not_mem fun hj => hne (playerSet_disjoint hC hva hg hj hjg)
      simp [this]
    · intro hng; exact absurd (List.mem_toFinset.mpr ((hpm g).mpr hg)) hng
  rw [hone]
  by_cases hgl : g ∈ leafPlayersCy m C (t.leafCols ℓ)
  · rw [if_pos hgl]
    have hsub : (leafPlayersCy m C (t.leafCols ℓ)).toFinset ⊆ playerSet m C := by
      intro c hc; rw [List.mem_toFinset, hlm] at hc; exact hc.1
    rw [shapley_restrict hsub (List.mem_toFinset.mpr hgl) hnull]
    generalize hL : leafPlayersCy m C (t.leafCols ℓ) = L at *
    have hcardL : L.length ≤ m := by
      have h1 := Finset.card_le_card hsub
      rw [List.toFinset_card_of_nodup hln] at h1
      exact h1.trans (playerSet_card hC)
    have hrl : (L.erase g).length = L.length - 1 := List.length_erase_of_mem hgl
    have hpos : 0 < L.length := List.length_pos_of_mem hgl
    have herase : (L.erase g).toFinset = L.toFinset.erase g := by
      ext c; simp [hln.mem_erase_iff]
    simp only [cyTerm_eq]
    have hms := mask_sum (L.erase g) (hln.erase g)
      (fun sel => (coefZero m sel.length + coefLoop m (L.erase g).length sel.length) *
        (leafShare m data (t.leafRect ℓ) x (insert g sel.toFinset) - leafShare m data (t.leafRect ℓ) x sel.toFinset))
      (fun S => (coefZero m S.card + coefLoop m (L.erase g).length S.card) *
        (leafShare m data (t.leafRect ℓ) x (insert g S) - leafShare m data (t.leafRect ℓ) x S))
      (by intro sel hs
          have : sel.toFinset.card = sel.length := List.toFinset_card_of_nodup ((hln.erase g).sublist hs)
          rw [this])
    rw [hms, Finset.sum_div, herase]
    unfold shapley
    apply Finset.sum_congr rfl
    intro S hS
    have hSc : S.card ≤ L.length - 1 := by
      have h1 := Finset.card_le_card (Finset.mem_powerset.mp hS)
      rw [Finset.card_erase_of_mem (List.mem_toFinset.mpr hgl), List.toFinset_card_of_nodup hln] at h1
      exact h1
    rw [mul_div_right_comm, hrl, coef_eq (by omega) hSc hm, List.toFinset_card_of_nodup hln]
    congr 2
    omega
  · rw [if_neg hgl, zero_div]
    symm
    apply shapley_null
    exact hnull g hg (by simpa using hgl)

/-- multiplying leaf values -/
theorem shapCy_eq {ts : List TreeArr} {m : Nat} (hts : ∀ t ∈ ts, WellFormed t m) {data : List Row}
    {C : List (List Nat)} (hC : ValidGroups m C) (hm : m < ulongMax) (x : Row) {j : Nat} (k : Nat)
    {g : List Nat} (hg : g ∈ playerSet m C) (hjg : j ∈ g) :
    shapCy ts m data C x j k = shapley (playerSet m C) (leafGame ts m data x k) g := by
  have h1 : leafGame ts m data x k = fun S => (ts.map fun t => (fun S => (t.leafIdx.map fun ℓ =>
      t.value ℓ k * leafShare m data (t.leafRect ℓ) x S).sum) S).sum := rfl
  rw [h1, shapley_sum]
  unfold shapCy
  rw [div_eq_mul_inv, ← List.sum_map_mul_right]
  congr 1
  apply List.map_congr_left
  intro t ht
  rw [shapley_sum (playerSet m C) t.leafIdx (fun ℓ S => t.value ℓ k * leafShare m data (t.leafRect ℓ) x S) g,
    ← List.sum_map_mul_right]
  congr 1
  apply List.map_congr_left
  intro ℓ hℓ
  rw [shapley_mul, ← cyLeafPhi_eq (hts t ht) hℓ hC hm x hg hjg]
  ring

end Acv

namespace Acv

/-- the leaf of a complete observation -/
def leafAt (t : TreeArr) (z : Row) : Nat := (t.leafOf (full z)).getD 0

theorem leafAt_eq {t : TreeArr} {d b} (h : IsTree t d b) (z : Row) : leafAt t z = b.descend z := by
  simp [leafAt, leafOf_full h]

theorem leafAt_endsIn {t : TreeArr} {d} (h : WellFormed t d) (z : Row) : EndsIn t (full z) (leafAt t z) := by
  obtain ⟨b, hb⟩ := h
  rw [leafAt_eq hb, endsIn_iff hb, descendObs_full]

theorem leafAt_mem {t : TreeArr} {d} (h : WellFormed t d) (z : Row) : leafAt t z ∈ t.leafIdx := by
  obtain ⟨b, hb⟩ := h
  rw [leafAt_eq hb, leafIdx_iff hb]; exact b.descend_mem z

theorem inBox_leaf_iff {t : TreeArr} {d} (h : WellFormed t d) (z : Row) {ℓ : Nat} (hℓ : ℓ ∈ t.leafIdx) :
    InBox d (t.leafRect ℓ) z ↔ leafAt t z = ℓ := by
  obtain ⟨b, hb⟩ := h
  rw [leafAt_eq hb, ← inBox_iff, leaf_mem_iff hb z ((leafIdx_iff hb _).mp hℓ)]

theorem leafIdx_nodup (t : TreeArr) : t.leafIdx.Nodup := List.nodup_range.filter _

open Classical in
theorem sum_leaf_indicator {t : TreeArr} {d} (h : WellFormed t d) (z : Row) (f : Nat → ℚ) :
    (t.leafIdx.map fun ℓ => if InBox d (t.leafRect ℓ) z then f ℓ else 0).sum = f (leafAt t z) := by
  rw [← List.sum_toFinset _ (leafIdx_nodup t), Finset.sum_eq_single (leafAt t z)]
  · rw [if_pos ((inBox_leaf_iff h z (leafAt_mem h z)).mpr rfl)]
  · intro ℓ hℓ hne
    rw [if_neg]
    rw [inBox_leaf_iff h z (List.mem_toFinset.mp hℓ)]
    exact fun he => hne he.symm
  · intro hn; exact absurd (List.mem_toFinset.mpr (leafAt_mem h z)) hn

theorem agreesOn_all {m : Nat} {C : List (List Nat)} (hC : ValidGroups m C) (r : Rect) (z : Row) :
    AgreesOn r (playerSet m C) z ↔ InBox m r z := by
  constructor
  · intro h j hj
    obtain ⟨g, hg, hjg⟩ := playerSet_cover (C := C) hj
    exact h g hg j hjg
  · intro h g hg s hs
    exact h s ((playerSet_lt hC hg).2.2 s hs)

open Classical in
theorem leafGame_full {ts : List TreeArr} {m : Nat} (hts : ∀ t ∈ ts, WellFormed t m) {data : List Row}
    {C : List (List Nat)} (hC : ValidGroups m C) (x : Row) (k : Nat)
    (hleaf : ∀ t ∈ ts, ∀ ℓ, EndsIn t (full x) ℓ → ∃ z ∈ data, EndsIn t (full z) ℓ) :
    leafGame ts m data x k (playerSet m C) = (ts.map fun t => t.value (leafAt t x) k).sum := by
  unfold leafGame
  congr 1
  apply List.map_congr_left
  intro t ht
  rw [← sum_leaf_indicator (hts t ht) x (fun ℓ => t.value ℓ k)]
  congr 1
  apply List.map_congr_left
  intro ℓ hℓ
  unfold leafShare
  simp only [agreesOn_all hC]
  by_cases hx : InBox m (t.leafRect ℓ) x
  · rw [if_pos hx, if_pos hx]
    obtain ⟨z, hz, hze⟩ := hleaf t ht _ (leafAt_endsIn (hts t ht) x)
    have hzl : leafAt t z = leafAt t x := by
      obtain ⟨b, hb⟩ := hts t ht
      rw [endsIn_iff hb, descendObs_full] at hze
      rw [leafAt_eq hb z, ← hze]
    have hzb : InBox m (t.leafRect ℓ) z := by
      rw [inBox_leaf_iff (hts t ht) z hℓ, hzl, (inBox_leaf_iff (hts t ht) x hℓ).mp hx]
    have hpos : 0 < (data.filter (fun z => InBox m (t.leafRect ℓ) z)).length :=
      List.length_pos_of_mem (List.mem_filter.mpr ⟨hz, by simpa using hzb⟩)
    rw [div_self (by positivity), mul_one]
  · rw [if_neg hx, if_neg hx, mul_zero]

open Classical in
theorem leafGame_empty {ts : List TreeArr} {m : Nat} (hts : ∀ t ∈ ts, WellFormed t m) {data : List Row}
    (_hdata : data ≠ []) (x : Row) (k : Nat) :
    leafGame ts m data x k ∅ = (data.map fun z => (ts.map fun t => t.value (leafAt t z) k).sum).sum / data.length := by
  have hshare : ∀ r, leafShare m data r x ∅ = ((data.filter (fun z => InBox m r z)).length : ℚ) / data.length := by
    intro r
    unfold leafShare
    have : ∀ z, AgreesOn r ∅ z := by intro z g hg; simp at hg
    simp only [this, if_true, decide_true, List.filter_true]
  unfold leafGame
  simp only [hshare]
  have hswap : (data.map fun z => (ts.map fun t => t.value (leafAt t z) k).sum).sum
      = (ts.map fun t => (data.map fun z => t.value (leafAt t z) k).sum).sum := by
    clear _hdata hshare
    induction data with
    | nil => simp
    | cons z data ih => simp only [List.map_cons, List.sum_cons, ih, sum_map_add]
  rw [hswap, div_eq_mul_inv, ← List.sum_map_mul_right]
  congr 1
  apply List.map_congr_left
  intro t ht
  have hcount : ∀ ℓ, ((data.filter (fun z => InBox m (t.leafRect ℓ) z)).length : ℚ)
      = (data.map fun z => if InBox m (t.leafRect ℓ) z then 1 else 0).sum := by
    intro ℓ
    clear _hdata hshare hswap
    induction data with
    | nil => simp
    | cons z data ih =>
      rw [List.map_cons, List.sum_cons, ← ih, List.filter_cons]
      by_cases h : InBox m (t.leafRect ℓ) z <;> simp [h, add_comm]
  have hper : (data.map fun z => t.value (leafAt t z) k).sum
      = (t.leafIdx.map fun ℓ => t.value ℓ k * (data.filter (fun z => InBox m (t.leafRect ℓ) z)).length).sum := by
    simp only [hcount]
    clear _hdata hshare hswap hcount
    induction data with
    | nil => simp
    | cons z data ih =>
      simp only [List.map_cons, List.sum_cons, mul_add, sum_map_add, ← ih]
      congr 1
      rw [← sum_leaf_indicator (hts t ht) z (fun ℓ => t.value ℓ k)]
      congr 1
      apply List.map_congr_left
      intro ℓ _
      split <;> simp
  rw [hper, ← List.sum_map_mul_right]
  congr 1
  apply List.map_congr_left
  intro ℓ _
  ring

/-- a player without column in the leaf gets nothing from it -/
theorem cyLeafPhi_zero {t : TreeArr} {m : Nat} (ht : WellFormed t m) {ℓ : Nat} (hℓ : ℓ ∈ t.leafIdx) {data : List Row}
    {C : List (List Nat)} (hC : ValidGroups m C) (x : Row) {j : Nat}
    {g : List Nat} (hg : g ∈ playerSet m C) (hjg : j ∈ g) (hno : ∀ s ∈ g, s ∉ t.leafCols ℓ) :
    cyLeafPhi m data C (t.leafRect ℓ) (t.leafCols ℓ) x j = 0 := by
  obtain ⟨hnd, hlt, _⟩ := leafCols_spec ht hℓ
  obtain ⟨_, hpm⟩ := playersCy_spec hC
  obtain ⟨_, hlm⟩ := leafPlayers_spec hC hnd hlt
  unfold cyLeafPhi
  simp only
  apply List.sum_eq_zero
  intro a ha
  obtain ⟨va, hva, rfl⟩ := List.mem_map.mp ha
  split
  · rename_i hin
    by_cases hjva : j ∈ va
    · have : va = g := playerSet_disjoint hC ((hpm va).mp hva) hg hjva hjg
      subst this
      obtain ⟨i, hi, hiv⟩ := ((hlm va).mp hin).2
      exact absurd hi (hno i hiv)
    · have : va.count j = 0 := List.count_eq_zero_of_not_mem hjva
      simp [this]
  · rfl

theorem above_internal {t : TreeArr} {d} (h : WellFormed t d) {k p n : Nat} (hk : 0 < k) (ha : Above t k p n) :
    p < t.size ∧ 0 ≤ t.left p ∧ 0 ≤ t.feature p := by
  obtain ⟨b, hb⟩ := h
  cases ha with
  | refl => simp at hk
  | step hcd _ =>
    have h0 : 0 ≤ t.left p := by
      by_contra hneg
      have hleaf := (encodes_leaf_iff hb.enc hb.nodup p ((hb.all p).mpr hcd.1)).mp (by simpa [TreeArr.isLeaf] using hneg)
      have := leaf_children hb.enc hleaf
      rcases hcd.2 with h1 | h1 <;> omega
    exact ⟨hcd.1, h0, feature_nonneg hb.enc p ((hb.all p).mpr hcd.1) h0⟩

end Acv
