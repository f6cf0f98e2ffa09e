import Verif.Model.Synthetic
import Mathlib.Data.List.Dedup
import Mathlib.Tactic.NormNum

/-!
# C110: the synthetic data set
-/

namespace Acv

theorem choice_mem {α : Type} {l : List α} {k : Nat} {a : α} (h : choice l k = some a) : a ∈ l := List.mem_of_getElem? h

theorem cPos_last {card : Nat} {s : List Char} (h : s ∈ cPos card) : s.getLast? = some 'A' := by
  obtain ⟨t, _, rfl⟩ := List.mem_map.mp (List.mem_of_mem_take h)
  simp

theorem cNeg_last {card : Nat} {s : List Char} (h : s ∈ cNeg card) : s.getLast? = some 'B' := by
  obtain ⟨t, _, rfl⟩ := List.mem_map.mp (List.mem_of_mem_take h)
  simp

theorem lowercase_nodup : lowercase.Nodup := by decide +kernel

theorem suffixes_length : suffixes.length = 676 := by
  have h : lowercase.length = 26 := by decide +kernel
  rw [suffixes, List.length_flatMap]
  simp [h]

theorem suffixes_nodup : suffixes.Nodup := by
  rw [suffixes, List.nodup_flatMap]
  refine ⟨fun i _ => lowercase_nodup.map fun a b h => by simpa using h, lowercase_nodup.imp fun {a b} hab => ?_⟩
  intro s h1 h2
  obtain ⟨j, _, rfl⟩ := List.mem_map.mp h1
  obtain ⟨k, _, h⟩ := List.mem_map.mp h2
  simp only [List.cons.injEq] at h
  exact hab h.1.symm

/-- **C110, the categories.** No value is in both sets, no value is repeated, and each set has half the cardinality, rounded down, and at most 676 values:
together they have the required number exactly if it is even and at most 1352. -/
theorem C110_values (card : Nat) :
    (∀ s, ¬ (s ∈ cPos card ∧ s ∈ cNeg card)) ∧ (cPos card).Nodup ∧ (cNeg card).Nodup ∧
    (cPos card).length = min (card / 2) 676 ∧ (cNeg card).length = min (card / 2) 676 ∧
    ((cPos card).length + (cNeg card).length = card ↔ card % 2 = 0 ∧ card ≤ 1352) := by
  have hn := suffixes_nodup
  have hl := suffixes_length
  have e1 : (cPos card).length = min (card / 2) 676 := by rw [cPos, List.length_take, List.length_map, hl]
  have e2 : (cNeg card).length = min (card / 2) 676 := by rw [cNeg, List.length_take, List.length_map, hl]
  refine ⟨?_, ?_, ?_, e1, e2, ?_⟩
  · rintro s ⟨h1, h2⟩
    have := (cPos_last h1).symm.trans (cNeg_last h2)
    simp at this
  · exact List.Nodup.sublist (List.take_sublist (card / 2) (suffixes.map fun s => s ++ ['A'])) (hn.map (List.append_left_injective ['A']))
  · exact List.Nodup.sublist (List.take_sublist (card / 2) (suffixes.map fun s => s ++ ['B'])) (hn.map (List.append_left_injective ['B']))
  · rw [e1, e2]; omega

/-- **C110, the target.** Whatever the random numbers: if the features are produced, there is one pair per target, and the target is 1 exactly if the
category is one of `C+` or the number is above the pivot. -/
theorem C110_target {pivot : ℚ} {card : Nat} {zs : List ℚ} {ys : List Bool} {draws : Nat → RowDraw} {l : List (List Char × ℚ)}
    (h : strongFeatures pivot card zs ys draws = some l) :
    l.length = ys.length ∧ ∀ i (hi : i < ys.length) (hl : i < l.length),
      (l[i].1 ∈ cPos card ∨ l[i].1 ∈ cNeg card) ∧ l[i].2 ∈ zs ∧ (ys[i] = true ↔ l[i].1 ∈ cPos card ∨ pivot < l[i].2) := by
  have hrow : ∀ y d p, strongRow pivot card zs y d = some p →
      (p.1 ∈ cPos card ∨ p.1 ∈ cNeg card) ∧ p.2 ∈ zs ∧ (y = true ↔ p.1 ∈ cPos card ∨ pivot < p.2) := by
    intro y d p hp
    have hbind : ∀ {L : List (List Char)} {Z : List ℚ} {a b : Nat}, ((choice L a).bind fun c => (choice Z b).map fun z => (c, z)) = some p →
        p.1 ∈ L ∧ p.2 ∈ Z := by
      intro L Z a b hh
      cases hc : choice L a with
      | none => rw [hc] at hh; cases hh
      | some c =>
        rw [hc, Option.bind_some] at hh
        cases hz : choice Z b with
        | none => rw [hz] at hh; cases hh
        | some z =>
          rw [hz] at hh
          cases hh
          exact ⟨choice_mem hc, choice_mem hz⟩
    unfold strongRow at hp
    simp only at hp
    cases y with
    | false =>
      simp only [Bool.false_and, Bool.false_eq_true, if_false] at hp
      obtain ⟨h1, h2⟩ := hbind hp
      rw [List.mem_filter, decide_eq_true_eq] at h2
      exact ⟨Or.inr h1, h2.1, by
        simp only [Bool.false_eq_true, false_iff, not_or, not_lt]
        exact ⟨fun h => (C110_values card).1 _ ⟨h, h1⟩, h2.2⟩⟩
    | true =>
      cases hc : d.coin with
      | true =>
        simp only [hc, Bool.and_self, if_true] at hp
        obtain ⟨h1, h2⟩ := hbind hp
        rw [List.mem_filter, decide_eq_true_eq] at h2
        exact ⟨List.mem_append.mp h1, h2.1, by simp [h2.2]⟩
      | false =>
        simp only [hc, Bool.and_false, Bool.false_eq_true, if_false, Bool.not_false, Bool.and_self, if_true] at hp
        obtain ⟨h1, h2⟩ := hbind hp
        rw [List.mem_filter] at h2
        exact ⟨Or.inl h1, h2.1, by simp [h1]⟩
  unfold strongFeatures at h
  have hgen : ∀ (ys : List Bool) (s : Nat) (l : List (List Char × ℚ)),
      ((ys.zipIdx s).mapM fun p => strongRow pivot card zs p.1 (draws p.2)) = some l →
      l.length = ys.length ∧ ∀ i (hi : i < ys.length) (hl : i < l.length), strongRow pivot card zs ys[i] (draws (s + i)) = some l[i] := by
    intro ys
    induction ys with
    | nil =>
      intro s l h
      simp only [List.zipIdx_nil, List.mapM_nil] at h
      cases h
      exact ⟨rfl, fun i hi => absurd hi (Nat.not_lt_zero i)⟩
    | cons y ys ih =>
      intro s l h
      rw [List.zipIdx_cons, List.mapM_cons] at h
      cases hr : strongRow pivot card zs y (draws s) with
      | none => simp only [hr] at h; cases h
      | some p =>
        cases hm : (ys.zipIdx (s + 1)).mapM fun p => strongRow pivot card zs p.1 (draws p.2) with
        | none => simp only [hr, hm] at h; cases h
        | some l' =>
          simp only [hr, hm] at h
          cases h
          obtain ⟨ih1, ih2⟩ := ih (s + 1) l' hm
          refine ⟨by simp [ih1], ?_⟩
          intro i hi hl
          cases i with
          | zero => simpa using hr
          | succ i =>
            simp only [List.getElem_cons_succ]
            rw [← Nat.succ_add_eq_add_succ]
            exact ih2 i (by simpa using hi) (by simpa using hl)
  obtain ⟨h1, h2⟩ := hgen ys 0 l h
  exact ⟨h1, fun i hi hl => hrow _ _ _ (h2 i hi hl)⟩

/-- **C110, when it raises.** With a cardinality below 2 there is no category, and the call raises for any nonempty list of targets; with at least one
number on each side of the pivot and a cardinality of 2 or more it never raises. -/
theorem C110_raises (pivot : ℚ) (card : Nat) (zs : List ℚ) (ys : List Bool) (draws : Nat → RowDraw) :
    (card < 2 → ys ≠ [] → strongFeatures pivot card zs ys draws = none) ∧
    (2 ≤ card → (∃ z ∈ zs, pivot < z) → (∃ z ∈ zs, z ≤ pivot) → ∃ l, strongFeatures pivot card zs ys draws = some l) := by
  have hch : ∀ {α : Type} (l : List α) (k : Nat), l ≠ [] → ∃ a, choice l k = some a := by
    intro α l k hl
    have hp : 0 < l.length := List.length_pos_of_ne_nil hl
    exact ⟨_, List.getElem?_eq_getElem (Nat.mod_lt k hp)⟩
  constructor
  · intro hc hy
    obtain ⟨y, ys, rfl⟩ := List.exists_cons_of_ne_nil hy
    have h0 : card / 2 = 0 := by omega
    have e1 : cPos card = [] := by rw [cPos, h0, List.take_zero]
    have e2 : cNeg card = [] := by rw [cNeg, h0, List.take_zero]
    have hr : strongRow pivot card zs y (draws 0) = none := by
      unfold strongRow
      simp only [e1, e2, List.append_nil]
      split_ifs <;> rfl
    unfold strongFeatures
    rw [List.zipIdx_cons, List.mapM_cons]
    simp only [hr]
    rfl
  · rintro hc ⟨z1, h1, h2⟩ ⟨z2, h3, h4⟩
    obtain ⟨_, _, _, l1, l2, _⟩ := C110_values card
    have n1 : cPos card ≠ [] := fun e => by rw [e] at l1; simp at l1; omega
    have n2 : cNeg card ≠ [] := fun e => by rw [e] at l2; simp at l2; omega
    have n3 : (zs.filter fun z => decide (pivot < z)) ≠ [] := List.ne_nil_of_mem (List.mem_filter.mpr ⟨h1, by simpa using h2⟩)
    have n4 : (zs.filter fun z => decide (z ≤ pivot)) ≠ [] := List.ne_nil_of_mem (List.mem_filter.mpr ⟨h3, by simpa using h4⟩)
    have hr : ∀ y d, ∃ p, strongRow pivot card zs y d = some p := by
      intro y d
      have hb : ∀ {L : List (List Char)} {Z : List ℚ}, L ≠ [] → Z ≠ [] →
          ∃ p, ((choice L d.c).bind fun c => (choice Z d.z).map fun z => (c, z)) = some p := by
        intro L Z hL hZ
        obtain ⟨c, e1⟩ := hch L d.c hL
        obtain ⟨z, e2⟩ := hch Z d.z hZ
        exact ⟨(c, z), by rw [e1, e2]; rfl⟩
      unfold strongRow
      simp only
      split_ifs
      · exact hb (by simp [n1]) n3
      · exact hb n1 n4
      · exact hb n2 n4
    unfold strongFeatures
    generalize 0 = s
    induction ys generalizing s with
    | nil => exact ⟨[], rfl⟩
    | cons y ys ih =>
      obtain ⟨p, hp⟩ := hr y (draws s)
      obtain ⟨l, hl⟩ := ih (s + 1)
      refine ⟨p :: l, ?_⟩
      rw [List.zipIdx_cons, List.mapM_cons]
      simp only [hp, hl]
      rfl

/-- **C110, the magic encoding.** Different categories of the column get different numbers, the numbers are `0, …, n - 1` for `n` categories, and every
category that ends with "A" gets a smaller number than every category that ends with "B". -/
theorem C110_magic (column : List (List Char)) :
    (∀ s ∈ column, ∀ t ∈ column, magicCode column s = magicCode column t → s = t) ∧
    (∀ s ∈ column, magicCode column s < column.dedup.length) ∧
    ∀ s ∈ column, ∀ t ∈ column, s.getLast? = some 'A' → t.getLast? = some 'B' → magicCode column s < magicCode column t := by
  have hperm : (magicValues column).Perm column.dedup := by
    refine (List.perm_insertionSort _ _).trans ((List.reverse_perm _).trans ?_)
    rw [List.perm_ext_iff_of_nodup (List.nodup_dedup _) (List.nodup_dedup _)]
    intro a
    simp
  have hmem : ∀ {s}, s ∈ column → s ∈ magicValues column := fun {s} h => hperm.mem_iff.mpr (List.mem_dedup.mpr h)
  have hsort : (magicValues column).Pairwise fun a b => lastCode a ≤ lastCode b := by
    haveI : Std.Total (fun a b : List Char => lastCode a ≤ lastCode b) := ⟨fun a b => Nat.le_total _ _⟩
    haveI : IsTrans (List Char) (fun a b => lastCode a ≤ lastCode b) := ⟨fun _ _ _ => Nat.le_trans⟩
    exact List.pairwise_insertionSort _ _
  have hinj : ∀ s ∈ column, ∀ t ∈ column, magicCode column s = magicCode column t → s = t := by
    intro s hs t ht h
    exact (List.idxOf_inj (hmem hs)).mp h
  refine ⟨hinj, ?_, ?_⟩
  · intro s hs
    rw [← hperm.length_eq]
    exact List.idxOf_lt_length_of_mem (hmem hs)
  · intro s hs t ht h1 h2
    by_contra hle
    push Not at hle
    have hne : magicCode column t ≠ magicCode column s := by
      intro e
      have := hinj t ht s hs e
      rw [this, h1] at h2
      simp at h2
    have hlt : magicCode column t < magicCode column s := lt_of_le_of_ne hle hne
    have l1 : magicCode column t < (magicValues column).length := List.idxOf_lt_length_of_mem (hmem ht)
    have l2 : magicCode column s < (magicValues column).length := List.idxOf_lt_length_of_mem (hmem hs)
    have := List.pairwise_iff_getElem.mp hsort _ _ l1 l2 hlt
    have g1 : (magicValues column)[magicCode column t]'l1 = t := List.getElem_idxOf l1
    have g2 : (magicValues column)[magicCode column s]'l2 = s := List.getElem_idxOf l2
    rw [g1, g2] at this
    unfold lastCode at this
    rw [List.getLastD_eq_getLast?, List.getLastD_eq_getLast?, h1, h2] at this
    revert this
    decide

/-- **C110, the names of the features.** They are the columns, in order, whose name does not start with "y" and, on request, not with "c" either: of the
columns `y`, `c`, `z`, `x0`, … of the data set, all but the target. -/
theorem C110_names (columns : List (List Char)) (includeC : Bool) :
    (featureNames columns includeC).Sublist columns ∧
    ∀ f, f ∈ featureNames columns includeC ↔ f ∈ columns ∧ (∀ g, f ≠ 'y' :: g) ∧ (includeC = false → ∀ g, f ≠ 'c' :: g) := by
  have hh : ∀ (c : Char) (f : List Char), (f.head? != some c) = true ↔ ∀ g, f ≠ c :: g := by
    intro c f
    cases f with
    | nil => simp
    | cons a f => simp
  cases includeC with
  | true =>
    refine ⟨List.filter_sublist, fun f => ?_⟩
    simp only [featureNames, if_true, List.mem_filter, hh]
    simp
  | false =>
    refine ⟨List.filter_sublist.trans List.filter_sublist, fun f => ?_⟩
    simp only [featureNames, Bool.false_eq_true, if_false, List.mem_filter, hh]
    simp [and_assoc]

/-- The claim of the documentation: the two sets together have the required number of values. -/
def C110_cardinality_claim : Prop := ∀ card : Nat, (cPos card).length + (cNeg card).length = card

/-- **C110, the cardinality is false of the code** for odd numbers and for numbers above 1352. -/
theorem C110_cardinality_false : ¬ C110_cardinality_claim ∧ (cPos 5).length + (cNeg 5).length = 4 ∧ (cPos 2000).length + (cNeg 2000).length = 1352 := by
  have h5 : (cPos 5).length + (cNeg 5).length = 4 := by decide +kernel
  refine ⟨fun h => ?_, h5, by rw [(C110_values 2000).2.2.2.1, (C110_values 2000).2.2.2.2.1]; norm_num⟩
  have := h 5
  omega

example : (strongFeatures 10 4 [8, 12] [true, false, true] fun i => ⟨i == 0, 3, 0⟩).map (fun l => l.map fun p => (String.ofList p.1, p.2)) =
      some [("abB", 12), ("abB", 8), ("abA", 8)] ∧
    (["aaB", "abA", "aaB", "aaA"].map fun s => magicCode (["aaB", "abA", "aaB", "aaA"].map String.toList) s.toList) = [2, 0, 2, 1] := by decide +kernel

end Acv
