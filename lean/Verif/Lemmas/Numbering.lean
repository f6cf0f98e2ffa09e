import Verif.Spec.Numbering
import Verif.Spec.LeafGame
import Verif.Lemmas.Cdp
import Verif.Lemmas.LeafShap
import Verif.Model.SdpReg
import Verif.Model.Normalized
import Verif.Model.ActiveShap
import Verif.Model.TreeSdp
import Mathlib.Data.List.Dedup

/-!
# Renumbered columns
-/

namespace Acv

variable {π : Equiv.Perm Nat}

theorem renumFeature_toNat {f : Int} (h : 0 ≤ f) : (renumFeature π f).toNat = π f.toNat := by
  unfold renumFeature
  rw [if_pos h, Int.toNat_natCast]

theorem renumFeature_nonneg {f : Int} : 0 ≤ renumFeature π f ↔ 0 ≤ f := by
  unfold renumFeature
  split
  · exact ⟨fun _ => ‹_›, fun _ => Int.natCast_nonneg _⟩
  · exact Iff.rfl

theorem renumFeature_injective : Function.Injective (renumFeature π) := by
  intro a b h
  by_cases ha : 0 ≤ a
  · have hb : 0 ≤ b := renumFeature_nonneg.1 (h ▸ renumFeature_nonneg.2 ha)
    have := congrArg Int.toNat h
    rw [renumFeature_toNat ha, renumFeature_toNat hb] at this
    have := π.injective this
    omega
  · have hb : ¬ 0 ≤ b := fun hb => ha (renumFeature_nonneg.1 (h ▸ renumFeature_nonneg.2 hb))
    unfold renumFeature at h
    rwa [if_neg ha, if_neg hb] at h

/-! ## Leaves -/

/-- Every node of the array with a child tests a column. -/
def SplitsOnColumns (t : TreeArr) : Prop := ∀ n < t.size, 0 ≤ t.left n ∨ 0 ≤ t.right n → 0 ≤ t.feature n

theorem encodes_splits (t : TreeArr) : ∀ b : BTree, Encodes t b → ∀ n ∈ b.ids, 0 ≤ t.left n ∨ 0 ≤ t.right n → 0 ≤ t.feature n
  | .leaf i, h, n, hn, hc => by
    simp only [BTree.ids, List.mem_singleton] at hn
    subst hn
    have := h.1
    have := h.2
    omega
  | .node i f thr l r, h, n, hn, hc => by
    obtain ⟨_, _, _, hf, _, hl, hr⟩ := h
    simp only [BTree.ids, List.mem_cons, List.mem_append] at hn
    rcases hn with rfl | hn | hn
    · rw [hf]; exact Int.natCast_nonneg _
    · exact encodes_splits t l hl n hn hc
    · exact encodes_splits t r hr n hn hc

theorem WellFormed.splits {t : TreeArr} {m : Nat} (h : WellFormed t m) : SplitsOnColumns t := by
  obtain ⟨b, hb⟩ := h
  exact fun n hn => encodes_splits t b hb.enc n ((hb.all n).2 hn)

theorem firstParent_child {t : TreeArr} {child : Nat → Int} {id r : Nat} (h : t.firstParent child id = some r) :
    r < t.size ∧ child r = (id : Int) := by
  unfold TreeArr.firstParent at h
  have h1 := List.mem_of_find?_eq_some h
  have h2 := List.find?_some h
  exact ⟨List.mem_range.1 h1, by simpa using h2⟩

theorem getPartition_renum {t : TreeArr} (ht : SplitsOnColumns t) : ∀ (fuel id : Nat) (part part' : Rect) (ids : List Int),
    (∀ f, part' (π f) = part f) →
    (∀ f, ((t.renum π).getPartition fuel id part' (ids.map (renumFeature π))).1 (π f) = (t.getPartition fuel id part ids).1 f) ∧
      ((t.renum π).getPartition fuel id part' (ids.map (renumFeature π))).2 = (t.getPartition fuel id part ids).2.map (renumFeature π) ∧
      ∃ l, (t.getPartition fuel id part ids).2 = ids ++ l ∧ ∀ f ∈ l, 0 ≤ f
  | 0, _, _, _, _, h => ⟨h, rfl, [], by simp [TreeArr.getPartition], by simp⟩
  | fuel + 1, id, part, part', ids, h => by
    have hp : ∀ child, (t.renum π).firstParent child id = t.firstParent child id := fun _ => rfl
    have hl : (t.renum π).left = t.left := rfl
    have hr : (t.renum π).right = t.right := rfl
    have hth : (t.renum π).threshold = t.threshold := rfl
    have hf : ∀ n, (t.renum π).feature n = renumFeature π (t.feature n) := fun _ => rfl
    have step : ∀ (r : Nat) (g : Ival → Ival), 0 ≤ t.feature r →
        (∀ f, (part'.set (renumFeature π (t.feature r)).toNat (g (part' (renumFeature π (t.feature r)).toNat))) (π f) =
          (part.set (t.feature r).toNat (g (part (t.feature r).toNat))) f) := by
      intro r g hr f
      rw [renumFeature_toNat hr]
      unfold Rect.set
      by_cases e : f = (t.feature r).toNat
      · rw [if_pos e, if_pos (by rw [e]), h]
      · rw [if_neg e, if_neg (fun e' => e (π.injective e')), h]
    have hm : ∀ r, (ids.map (renumFeature π)) ++ [renumFeature π (t.feature r)] = (ids ++ [t.feature r]).map (renumFeature π) := by
      intro r; simp
    unfold TreeArr.getPartition
    simp only [hp, hl, hr, hf, hth]
    cases h1 : t.firstParent t.right id with
    | some r =>
      obtain ⟨hrs, hrc⟩ := firstParent_child h1
      have hpos := ht r hrs (Or.inr (by rw [hrc]; exact Int.natCast_nonneg _))
      simp only [hm]
      have ih := getPartition_renum ht fuel r _ _ (ids ++ [t.feature r]) (step r (fun i => i.above (t.threshold r)) hpos)
      obtain ⟨i1, i2, l, i3, i4⟩ := ih
      exact ⟨i1, i2, t.feature r :: l, by rw [i3]; simp, by simpa using ⟨hpos, i4⟩⟩
    | none =>
      cases h2 : t.firstParent t.left id with
      | none => exact ⟨h, rfl, [], by simp, by simp⟩
      | some r =>
        obtain ⟨hrs, hrc⟩ := firstParent_child h2
        have hpos := ht r hrs (Or.inl (by rw [hrc]; exact Int.natCast_nonneg _))
        simp only [hm]
        have ih := getPartition_renum ht fuel r _ _ (ids ++ [t.feature r]) (step r (fun i => i.below (t.threshold r)) hpos)
        obtain ⟨i1, i2, l, i3, i4⟩ := ih
        exact ⟨i1, i2, t.feature r :: l, by rw [i3]; simp, by simpa using ⟨hpos, i4⟩⟩

/-- A rectangle on the renumbered columns. -/
def renumRect (π : Equiv.Perm Nat) (r : Rect) : Rect := fun f => r (π.symm f)

theorem leafRect_renum {t : TreeArr} (ht : SplitsOnColumns t) (ℓ : Nat) : (t.renum π).leafRect ℓ = renumRect π (t.leafRect ℓ) := by
  funext f
  have := (getPartition_renum (π := π) ht t.size ℓ (fun _ => Ival.all) (fun _ => Ival.all) [-1] fun _ => rfl).1 (π.symm f)
  rw [π.apply_symm_apply] at this
  exact this

theorem leafCols_renum {t : TreeArr} (ht : SplitsOnColumns t) (ℓ : Nat) : (t.renum π).leafCols ℓ = (t.leafCols ℓ).map π := by
  obtain ⟨_, h2, l, h3, h4⟩ := getPartition_renum (π := π) ht t.size ℓ (fun _ => Ival.all) (fun _ => Ival.all) [-1] fun _ => rfl
  have e : [-1].map (renumFeature π) = [-1] := by simp [renumFeature]
  rw [e] at h2
  have h5 : (t.renum π).leafVars ℓ = (t.leafVars ℓ).map (renumFeature π) := by
    unfold TreeArr.leafVars
    show (((t.renum π).getPartition t.size ℓ (fun _ => Ival.all) [-1]).2.drop 1).dedup = _
    rw [h2, ← List.map_drop, List.dedup_map_of_injective renumFeature_injective]
  unfold TreeArr.leafCols
  rw [h5, List.map_map, List.map_map]
  refine List.map_congr_left fun f hf => ?_
  unfold TreeArr.leafVars at hf
  rw [h3] at hf
  have : f ∈ l := by simpa using hf
  exact renumFeature_toNat (h4 f this)

/-! ## Tests on rows -/

theorem sat_renum (r : Rect) (S : List Nat) (z : Row) : sat (renumRect π r) (S.map π) (renumRow π z) = sat r S z := by
  unfold sat renumRect renumRow
  rw [List.all_map]
  simp only [Function.comp_def, π.symm_apply_apply]

theorem satCC_renum (r : Rect) (S : List Nat) (z : Row) : satCC (renumRect π r) (S.map π) (renumRow π z) = satCC r S z := by
  unfold satCC renumRect renumRow
  rw [List.all_map]
  simp only [Function.comp_def, π.symm_apply_apply]

theorem eqOn_renum (S : List Nat) (x z : Row) : eqOn (S.map π) (renumRow π x) (renumRow π z) = eqOn S x z := by
  unfold eqOn renumRow
  rw [List.all_map]
  simp only [Function.comp_def, π.symm_apply_apply]

theorem all_range_renum {m : Nat} (hπ : ∀ j, π j < m ↔ j < m) (p : Nat → Bool) :
    (List.range m).all p = (List.range m).all fun s => p (π s) := by
  rw [Bool.eq_iff_iff, List.all_eq_true, List.all_eq_true]
  constructor
  · exact fun h s hs => h _ (List.mem_range.2 ((hπ s).2 (List.mem_range.1 hs)))
  · intro h s hs
    have := h (π.symm s) (List.mem_range.2 ((hπ _).1 (by rw [π.apply_symm_apply]; exact List.mem_range.1 hs)))
    rwa [π.apply_symm_apply] at this

theorem sat_renum_range {m : Nat} (hπ : ∀ j, π j < m ↔ j < m) (r : Rect) (z : Row) :
    sat (renumRect π r) (List.range m) (renumRow π z) = sat r (List.range m) z := by
  unfold sat renumRect renumRow
  rw [all_range_renum hπ]
  simp only [π.symm_apply_apply]

theorem satCC_renum_range {m : Nat} (hπ : ∀ j, π j < m ↔ j < m) (r : Rect) (z : Row) :
    satCC (renumRect π r) (List.range m) (renumRow π z) = satCC r (List.range m) z := by
  unfold satCC renumRect renumRow
  rw [all_range_renum hπ]
  simp only [π.symm_apply_apply]

theorem filter_renum (d : List Row) (p : Row → Bool) :
    (d.map (renumRow π)).filter p = (d.filter fun z => p (renumRow π z)).map (renumRow π) := by
  rw [List.filter_map]
  rfl

theorem cnt_renum (d : List Row) (r : Rect) (S : List Nat) : cnt (d.map (renumRow π)) (renumRect π r) (S.map π) = cnt d r S := by
  unfold cnt
  rw [filter_renum, List.length_map]
  simp only [sat_renum]

theorem cnt_renum_range {m : Nat} (hπ : ∀ j, π j < m ↔ j < m) (d : List Row) (r : Rect) :
    cnt (d.map (renumRow π)) (renumRect π r) (List.range m) = cnt d r (List.range m) := by
  unfold cnt
  rw [filter_renum, List.length_map]
  simp only [sat_renum_range hπ]

theorem cntCC_renum (d : List Row) (r : Rect) (S : List Nat) : cntCC (d.map (renumRow π)) (renumRect π r) (S.map π) = cntCC d r S := by
  unfold cntCC
  rw [filter_renum, List.length_map]
  simp only [satCC_renum]

theorem cntCC_renum_range {m : Nat} (hπ : ∀ j, π j < m ↔ j < m) (d : List Row) (r : Rect) :
    cntCC (d.map (renumRow π)) (renumRect π r) (List.range m) = cntCC d r (List.range m) := by
  unfold cntCC
  rw [filter_renum, List.length_map]
  simp only [satCC_renum_range hπ]

theorem cntCC2_renum (d : List Row) (r r' : Rect) (S : List Nat) :
    cntCC2 (d.map (renumRow π)) (renumRect π r) (renumRect π r') (S.map π) = cntCC2 d r r' S := by
  unfold cntCC2
  rw [filter_renum, List.length_map]
  simp only [satCC_renum]

theorem cntCC2_renum_range {m : Nat} (hπ : ∀ j, π j < m ↔ j < m) (d : List Row) (r r' : Rect) :
    cntCC2 (d.map (renumRow π)) (renumRect π r) (renumRect π r') (List.range m) = cntCC2 d r r' (List.range m) := by
  unfold cntCC2
  rw [filter_renum, List.length_map]
  simp only [satCC_renum_range hπ]

/-! ## Players -/

theorem map_mem_iff {S : List Nat} {i : Nat} : π i ∈ S.map π ↔ i ∈ S := by
  rw [List.mem_map]
  exact ⟨fun ⟨a, ha, e⟩ => π.injective e ▸ ha, fun h => ⟨i, h, rfl⟩⟩

theorem mapπ_injective : Function.Injective (List.map π) := List.map_injective_iff.2 π.injective

theorem groupUp_renum {free free' : List Nat} (hf : ∀ i, π i ∈ free' ↔ i ∈ free) : ∀ (is : List Nat) (buff : List (List Nat)),
    groupUp free' (is.map π) (buff.map (List.map π)) = (groupUp free is buff).map (List.map π)
  | [], _ => rfl
  | i :: is, buff => by
    rw [List.map_cons]
    unfold groupUp
    by_cases h : i ∈ free
    · rw [if_pos h, if_pos ((hf i).2 h), groupUp_renum hf is buff]
      rfl
    · rw [if_neg h, if_neg (fun h' => h ((hf i).1 h'))]
      have hfind : (buff.map (List.map π)).find? (fun c => decide (π i ∈ c)) = (buff.find? fun c => decide (i ∈ c)).map (List.map π) := by
        rw [List.find?_map]
        simp only [Function.comp_def, map_mem_iff]
      rw [hfind]
      cases buff.find? fun c => decide (i ∈ c) with
      | none => exact groupUp_renum hf is buff
      | some c =>
        simp only [Option.map_some, List.map_cons]
        rw [← groupUp_renum hf is (buff.erase c), List.map_erase mapπ_injective]

theorem hasGroups_renum (C : List (List Nat)) : hasGroups (C.map (List.map π)) = hasGroups C := by
  unfold hasGroups
  cases C with
  | nil => rfl
  | cons c C => cases c <;> rfl

theorem flatten_renum (C : List (List Nat)) : (C.map (List.map π)).flatten = C.flatten.map π := by
  rw [List.map_flatten]

theorem freeCols_renum {m : Nat} (hπ : ∀ j, π j < m ↔ j < m) (C : List (List Nat)) (i : Nat) :
    π i ∈ freeCols m (C.map (List.map π)) ↔ i ∈ freeCols m C := by
  unfold freeCols
  rw [List.mem_filter, List.mem_filter, List.mem_range, List.mem_range, hπ, flatten_renum]
  simp only [decide_eq_true_eq, map_mem_iff]

theorem leafPlayersCy_renum {m : Nat} (hπ : ∀ j, π j < m ↔ j < m) (C : List (List Nat)) (vars : List Nat) :
    leafPlayersCy m (C.map (List.map π)) (vars.map π) = (leafPlayersCy m C vars).map (List.map π) := by
  unfold leafPlayersCy
  rw [hasGroups_renum]
  by_cases h : hasGroups C = true
  · rw [if_pos h, if_pos h, groupUp_renum (freeCols_renum hπ C)]
  · rw [if_neg h, if_neg h, List.map_map, List.map_map]
    rfl

theorem playerSet_renum {m : Nat} (hπ : ∀ j, π j < m ↔ j < m) (C : List (List Nat)) (c : List Nat) :
    c.map π ∈ playerSet m (C.map (List.map π)) ↔ c ∈ playerSet m C := by
  unfold playerSet
  simp only [Finset.mem_union, List.mem_toFinset, List.mem_filter, Finset.mem_image, Finset.mem_filter, Finset.mem_range, decide_eq_true_eq]
  constructor
  · rintro (⟨h1, h2⟩ | ⟨i, ⟨h1, h2⟩, h3⟩)
    · left
      refine ⟨?_, by simpa using h2⟩
      obtain ⟨c', hc', e⟩ := List.mem_map.1 h1
      exact mapπ_injective e ▸ hc'
    · right
      obtain ⟨a, rfl⟩ : ∃ a, c = [a] := by
        cases c with
        | nil => simp at h3
        | cons a c => cases c with
          | nil => exact ⟨a, rfl⟩
          | cons b c => simp at h3
      have hi : i = π a := by simpa using h3
      subst hi
      refine ⟨a, ⟨(hπ a).1 h1, fun g hg ha => ?_⟩, rfl⟩
      exact h2 _ (List.mem_map_of_mem hg) (map_mem_iff.2 ha)
  · rintro (⟨h1, h2⟩ | ⟨i, ⟨h1, h2⟩, rfl⟩)
    · exact Or.inl ⟨List.mem_map_of_mem h1, by simpa using h2⟩
    · right
      refine ⟨π i, ⟨(hπ i).2 h1, fun g hg hi => ?_⟩, rfl⟩
      obtain ⟨g', hg', rfl⟩ := List.mem_map.1 hg
      exact h2 g' hg' (map_mem_iff.1 hi)

theorem validGroups_renum {m : Nat} (hπ : ∀ j, π j < m ↔ j < m) {C : List (List Nat)} (hC : ValidGroups m C) :
    ValidGroups m (C.map (List.map π)) := by
  rcases hC with rfl | ⟨h1, h2, h3⟩
  · exact Or.inl rfl
  · right
    refine ⟨by simpa using h1, ?_, ?_⟩
    · intro g hg
      obtain ⟨g', hg', rfl⟩ := List.mem_map.1 hg
      obtain ⟨a, b, c⟩ := h2 g' hg'
      refine ⟨by simpa using a, b.map π.injective, fun s hs => ?_⟩
      obtain ⟨s', hs', rfl⟩ := List.mem_map.1 hs
      exact (hπ s').2 (c s' hs')
    · rw [List.pairwise_map]
      refine h3.imp ?_
      intro g g' hd s hs hs'
      obtain ⟨a, ha, rfl⟩ := List.mem_map.1 hs
      exact hd ha (map_mem_iff.1 hs')

theorem playersCy_renum {m : Nat} (hπ : ∀ j, π j < m ↔ j < m) {C : List (List Nat)} (hC : ValidGroups m C) :
    (playersCy m (C.map (List.map π))).Perm ((playersCy m C).map (List.map π)) := by
  obtain ⟨n1, p1⟩ := playersCy_spec (validGroups_renum hπ hC)
  obtain ⟨n2, p2⟩ := playersCy_spec hC
  rw [List.perm_ext_iff_of_nodup n1 (n2.map mapπ_injective)]
  intro c
  have hc : c = (c.map π.symm).map π := by
    rw [List.map_map]
    simp
  rw [hc, p1, playerSet_renum hπ, List.mem_map_of_injective mapπ_injective, p2]

theorem maskSel_map {α β : Type} (f : α → β) : ∀ (l : List α) (c : Nat), maskSel (l.map f) c = (maskSel l c).map f
  | [], _ => rfl
  | a :: l, c => by
    rw [List.map_cons]
    unfold maskSel
    rw [maskSel_map f l]
    split <;> rfl

end Acv
