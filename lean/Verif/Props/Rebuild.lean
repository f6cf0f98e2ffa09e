import Verif.Model.Rebuild
import Verif.Props.TreeSdp
import Mathlib.Tactic.Ring
import Mathlib.Tactic.FieldSimp

/-! # C88: refilling a tree -/

namespace Acv

/-- Descents stay in the subtree. -/
theorem visits_ids {t : TreeArr} {x : Obs} {n k : Nat} (h : Visits t x n k) :
    ∀ b : BTree, Encodes t b → n ∈ b.ids → k ∈ b.ids := by
  induction h with
  | refl n => exact fun b _ h => h
  | step hs _ ih =>
    intro b hb hn
    refine ih b hb ?_
    clear ih
    rename_i n m k _
    induction b with
    | leaf i =>
      simp only [BTree.ids, List.mem_singleton] at hn
      subst hn
      exact absurd hs.1 (not_le.2 hb.1)
    | node i f thr l r ihl ihr =>
      obtain ⟨e1, e2, e3, _, _, hl, hr⟩ := hb
      simp only [BTree.ids, List.mem_cons, List.mem_append] at hn ⊢
      rcases hn with rfl | hn | hn
      · have hm : m = l.id ∨ m = r.id := by
          obtain ⟨_, h2⟩ := hs
          split at h2
          · rcases e3 with e | e <;> rw [e] at h2
            · left; rw [e1] at h2; exact_mod_cast h2.symm
            · right; rw [e2] at h2; exact_mod_cast h2.symm
          · rcases h2 with ⟨_, h2⟩ | ⟨_, h2⟩
            · left; rw [e1] at h2; exact_mod_cast h2.symm
            · right; rw [e2] at h2; exact_mod_cast h2.symm
        rcases hm with rfl | rfl
        · exact Or.inr (Or.inl (BTree.id_mem_ids l))
        · exact Or.inr (Or.inr (BTree.id_mem_ids r))
      · exact Or.inr (Or.inl (ihl hl hn))
      · exact Or.inr (Or.inr (ihr hr hn))

theorem visits_left {t : TreeArr} {i f : Nat} {thr : ℚ} {l r : BTree} (hb : Encodes t (.node i f thr l r))
    (hn : (BTree.node i f thr l r).ids.Nodup) {n : Nat} (hl : n ∈ l.ids) (z : Row) :
    Visits t (full z) i n ↔ z f ≤ thr ∧ Visits t (full z) l.id n := by
  obtain ⟨e1, e2, e3, e4, e5, hel, her⟩ := hb
  simp only [BTree.ids, List.nodup_cons, List.mem_append, not_or, List.nodup_append] at hn
  constructor
  · intro h
    cases h with
    | refl => exact absurd hl hn.1.1
    | step hs hv =>
      obtain ⟨_, h2⟩ := hs
      rw [e4, e5, e1, e2] at h2
      simp only [full, Int.toNat_natCast] at h2
      rcases h2 with ⟨h3, h4⟩ | ⟨_, h4⟩
      · rw [← Int.ofNat_inj.1 h4] at hv
        exact ⟨h3, hv⟩
      · rw [← Int.ofNat_inj.1 h4] at hv
        exact absurd rfl (hn.2.2.2 n hl n (visits_ids hv r her (BTree.id_mem_ids r)))
  · rintro ⟨h1, h2⟩
    refine Visits.step ⟨by rw [e1]; exact Int.natCast_nonneg _, ?_⟩ h2
    rw [e4, e5, e1]
    simp only [full, Int.toNat_natCast]
    exact Or.inl ⟨h1, trivial⟩

theorem visits_right {t : TreeArr} {i f : Nat} {thr : ℚ} {l r : BTree} (hb : Encodes t (.node i f thr l r))
    (hn : (BTree.node i f thr l r).ids.Nodup) {n : Nat} (hr : n ∈ r.ids) (z : Row) :
    Visits t (full z) i n ↔ z f > thr ∧ Visits t (full z) r.id n := by
  obtain ⟨e1, e2, e3, e4, e5, hel, her⟩ := hb
  simp only [BTree.ids, List.nodup_cons, List.mem_append, not_or, List.nodup_append] at hn
  constructor
  · intro h
    cases h with
    | refl => exact absurd hr hn.1.2
    | step hs hv =>
      obtain ⟨_, h2⟩ := hs
      rw [e4, e5, e1, e2] at h2
      simp only [full, Int.toNat_natCast] at h2
      rcases h2 with ⟨_, h4⟩ | ⟨h3, h4⟩
      · rw [← Int.ofNat_inj.1 h4] at hv
        exact absurd rfl (hn.2.2.2 n (visits_ids hv l hel (BTree.id_mem_ids l)) n hr)
      · rw [← Int.ofNat_inj.1 h4] at hv
        exact ⟨h3, hv⟩
  · rintro ⟨h1, h2⟩
    refine Visits.step ⟨by rw [e1]; exact Int.natCast_nonneg _, ?_⟩ h2
    rw [e4, e5, e2]
    simp only [full, Int.toNat_natCast]
    exact Or.inr ⟨h1, trivial⟩

open Classical in
/-- The rows whose descent from node `a` passes through node `n`. -/
noncomputable def through (t : TreeArr) (a n : Nat) (rows : List (Row × (Nat → ℚ))) : List (Row × (Nat → ℚ)) :=
  rows.filter fun p => decide (Visits t (full p.1) a n)

theorem rebuild_spec {t : TreeArr} : ∀ (b : BTree), Encodes t b → b.ids.Nodup → ∀ (fuel : Nat), b.height < fuel →
    ∀ (rows : List (Row × (Nat → ℚ))) (st : Refill),
    (∀ n ∈ b.ids, (rebuild t fuel b.id rows st).weight n = (through t b.id n rows).length ∧
      ∀ k, (rebuild t fuel b.id rows st).value n k = meanOut (through t b.id n rows) k) ∧
    ∀ n, n ∉ b.ids → (rebuild t fuel b.id rows st).weight n = st.weight n ∧ (rebuild t fuel b.id rows st).value n = st.value n := by
  classical
  intro b
  have hself : ∀ (a : Nat) (rows : List (Row × (Nat → ℚ))), through t a a rows = rows := fun a rows =>
    List.filter_eq_self.2 fun p _ => decide_eq_true (Visits.refl a)
  induction b with
  | leaf i =>
    intro hb _ fuel hf rows st
    obtain ⟨k, rfl⟩ : ∃ k, fuel = k + 1 := ⟨fuel - 1, by simp [BTree.height] at hf; omega⟩
    have hr : t.right i < 0 := hb.2
    have he : rebuild t (k + 1) i rows st = { weight := fun n => if n = i then (rows.length : ℚ) else st.weight n
                                              value := fun n => if n = i then meanOut rows else st.value n } := by
      rw [rebuild]; exact if_pos hr
    simp only [BTree.ids, BTree.id, List.mem_singleton, he]
    refine ⟨?_, ?_⟩
    · rintro n rfl
      simp only [if_true, hself, true_and, implies_true]
    · intro n hn
      simp only [if_neg hn, and_self]
  | node i f thr l r ihl ihr =>
    intro hb hnd fuel hf rows st
    obtain ⟨k, rfl⟩ : ∃ k, fuel = k + 1 := ⟨fuel - 1, by simp [BTree.height] at hf; omega⟩
    have hvl := fun (n : Nat) (hl : n ∈ l.ids) (z : Row) => visits_left hb hnd hl z
    have hvr := fun (n : Nat) (hr : n ∈ r.ids) (z : Row) => visits_right hb hnd hr z
    obtain ⟨e1, e2, e3, e4, e5, hel, her⟩ := hb
    have hnd' := hnd
    simp only [BTree.ids, List.nodup_cons, List.mem_append, not_or, List.nodup_append] at hnd'
    simp only [BTree.height] at hf
    have hr : ¬ t.right i < 0 := by rw [e2]; exact not_lt.2 (Int.natCast_nonneg _)
    have he : rebuild t (k + 1) i rows st = rebuild t k r.id (rows.filter fun p => decide (p.1 f > thr))
        (rebuild t k l.id (rows.filter fun p => decide (p.1 f ≤ thr))
          { weight := fun n => if n = i then (rows.length : ℚ) else st.weight n
            value := fun n => if n = i then meanOut rows else st.value n }) := by
      rw [rebuild, if_neg hr, e1, e2, e4, e5]
      simp only [Int.toNat_natCast]
    have hid : (BTree.node i f thr l r).id = i := rfl
    rw [hid, he]
    generalize hst : ({ weight := fun n => if n = i then (rows.length : ℚ) else st.weight n
                        value := fun n => if n = i then meanOut rows else st.value n } : Refill) = st1
    generalize hL : (rows.filter fun p => decide (p.1 f ≤ thr)) = L
    generalize hR : (rows.filter fun p => decide (p.1 f > thr)) = R
    have h1 := ihl hel hnd'.2.1 k (by omega) L st1
    generalize rebuild t k l.id L st1 = st2 at h1
    have h2 := ihr her hnd'.2.2.1 k (by omega) R st2
    have hthl : ∀ n ∈ l.ids, through t l.id n L = through t i n rows := by
      intro n hn
      subst hL
      unfold through
      rw [List.filter_filter]
      refine List.filter_congr fun p _ => ?_
      rw [Bool.eq_iff_iff]
      simp only [Bool.and_eq_true, decide_eq_true_eq]
      rw [hvl n hn]
      exact and_comm
    have hthr : ∀ n ∈ r.ids, through t r.id n R = through t i n rows := by
      intro n hn
      subst hR
      unfold through
      rw [List.filter_filter]
      refine List.filter_congr fun p _ => ?_
      rw [Bool.eq_iff_iff]
      simp only [Bool.and_eq_true, decide_eq_true_eq]
      rw [hvr n hn]
      exact and_comm
    refine ⟨fun n hn => ?_, fun n hn => ?_⟩
    · simp only [BTree.ids, List.mem_cons, List.mem_append] at hn
      rcases hn with rfl | hn | hn
      · rw [(h2.2 n hnd'.1.2).1, (h2.2 n hnd'.1.2).2, (h1.2 n hnd'.1.1).1, (h1.2 n hnd'.1.1).2, ← hst, hself]
        simp
      · have hnr : n ∉ r.ids := fun h => hnd'.2.2.2 n hn n h rfl
        rw [(h2.2 n hnr).1, (h2.2 n hnr).2, ← hthl n hn]
        exact h1.1 n hn
      · rw [← hthr n hn]
        exact h2.1 n hn
    · simp only [BTree.ids, List.mem_cons, List.mem_append, not_or] at hn
      rw [(h2.2 n hn.2.2).1, (h2.2 n hn.2.2).2, (h1.2 n hn.2.1).1, (h1.2 n hn.2.1).2, ← hst]
      simp [hn.1]

/-- **C88.** After `rebuild_acvtree` on the root of a well-formed tree, the weight of every node is the number of rows whose descent passes
through it, and its values are the means of the targets of these rows (NaN if there is none). -/
theorem C88_rebuild {t : TreeArr} {d : Nat} (h : WellFormed t d) (rows : List (Row × (Nat → ℚ))) (st : Refill) {n : Nat} (hn : n < t.size) :
    ∃ R : List (Row × (Nat → ℚ)), R.Sublist rows ∧ (∀ p ∈ rows, p ∈ R ↔ Visits t (full p.1) 0 n) ∧
      (rebuildTree t rows st).weight n = R.length ∧
      ∀ k, (R = [] → (rebuildTree t rows st).value n k = none) ∧
        (R ≠ [] → (rebuildTree t rows st).value n k = some ((R.map fun p => p.2 k).sum / R.length)) := by
  classical
  obtain ⟨b, hb⟩ := h
  have hs := (rebuild_spec b hb.enc hb.nodup t.size (by rw [← ids_length hb]; exact b.height_lt) rows st).1 n ((hb.all n).2 hn)
  rw [hb.root] at hs
  refine ⟨through t 0 n rows, List.filter_sublist, fun p hp => ?_, hs.1, fun k => ⟨fun he => ?_, fun hne => ?_⟩⟩
  · unfold through
    rw [List.mem_filter, decide_eq_true_eq]
    exact ⟨fun h => h.2, fun h => ⟨hp, h⟩⟩
  · unfold rebuildTree
    rw [hs.2 k, he]
    rfl
  · unfold rebuildTree
    rw [hs.2 k]
    have hl : ((through t 0 n rows).length : ℚ) ≠ 0 := by exact_mod_cast (List.length_pos_iff.2 hne).ne'
    unfold meanOut npDiv
    rw [if_neg hl]

/-- **C88, the cells of the array that are not nodes.** They keep what they held. -/
theorem C88_others {t : TreeArr} {d : Nat} (h : WellFormed t d) (rows : List (Row × (Nat → ℚ))) (st : Refill) {n : Nat} (hn : t.size ≤ n) :
    (rebuildTree t rows st).weight n = st.weight n ∧ (rebuildTree t rows st).value n = st.value n := by
  obtain ⟨b, hb⟩ := h
  have hs := (rebuild_spec b hb.enc hb.nodup t.size (by rw [← ids_length hb]; exact b.height_lt) rows st).2 n
    (fun h => absurd ((hb.all n).1 h) (not_lt.2 hn))
  rw [hb.root] at hs
  exact hs

/-- The descents that pass through a child are those that pass through its parent and take its side of the test. -/
theorem child_visits {t : TreeArr} : ∀ b : BTree, Encodes t b → b.ids.Nodup → ∀ n ∈ b.ids, 0 ≤ t.left n →
    ∃ m k : Nat, t.left n = m ∧ t.right n = k ∧ m ∈ b.ids ∧ k ∈ b.ids ∧
      (∀ z : Row, Visits t (full z) b.id m ↔ z (t.feature n).toNat ≤ t.threshold n ∧ Visits t (full z) b.id n) ∧
      (∀ z : Row, Visits t (full z) b.id k ↔ z (t.feature n).toNat > t.threshold n ∧ Visits t (full z) b.id n) := by
  intro b
  induction b with
  | leaf i =>
    intro hb hnd n hn hp
    simp only [BTree.ids, List.mem_singleton] at hn
    subst hn
    exact absurd hp (not_le.2 hb.1)
  | node i f thr l r ihl ihr =>
    intro hb hnd n hn hp
    have hnd' := hnd
    simp only [BTree.ids, List.nodup_cons, List.mem_append, not_or, List.nodup_append] at hnd'
    simp only [BTree.ids, List.mem_cons, List.mem_append] at hn
    have hid : (BTree.node i f thr l r).id = i := rfl
    rw [hid]
    have hvl := fun (n : Nat) (hl : n ∈ l.ids) (z : Row) => visits_left hb hnd hl z
    have hvr := fun (n : Nat) (hr : n ∈ r.ids) (z : Row) => visits_right hb hnd hr z
    obtain ⟨e1, e2, e3, e4, e5, hel, her⟩ := hb
    rcases hn with rfl | hn | hn
    · refine ⟨l.id, r.id, e1, e2, ?_, ?_, fun z => ?_, fun z => ?_⟩
      · simp [BTree.ids, BTree.id_mem_ids]
      · simp [BTree.ids, BTree.id_mem_ids]
      · rw [hvl _ (BTree.id_mem_ids l), e4, e5]
        exact ⟨fun h => ⟨h.1, .refl _⟩, fun h => ⟨h.1, .refl _⟩⟩
      · rw [hvr _ (BTree.id_mem_ids r), e4, e5]
        exact ⟨fun h => ⟨h.1, .refl _⟩, fun h => ⟨h.1, .refl _⟩⟩
    · obtain ⟨m, k, h1, h2, h3, h4, h5, h6⟩ := ihl hel hnd'.2.1 n hn hp
      refine ⟨m, k, h1, h2, by simp [BTree.ids, h3], by simp [BTree.ids, h4], fun z => ?_, fun z => ?_⟩
      · rw [hvl _ h3, h5, hvl _ hn]
        tauto
      · rw [hvl _ h4, h6, hvl _ hn]
        tauto
    · obtain ⟨m, k, h1, h2, h3, h4, h5, h6⟩ := ihr her hnd'.2.2.1 n hn hp
      refine ⟨m, k, h1, h2, by simp [BTree.ids, h3], by simp [BTree.ids, h4], fun z => ?_, fun z => ?_⟩
      · rw [hvr _ h3, h5, hvr _ hn]
        tauto
      · rw [hvr _ h4, h6, hvr _ hn]
        tauto

theorem sum_split (f : Nat) (thr : ℚ) (g : Row × (Nat → ℚ) → ℚ) (L : List (Row × (Nat → ℚ))) :
    (L.map g).sum = ((L.filter fun p => decide (p.1 f ≤ thr)).map g).sum + ((L.filter fun p => decide (p.1 f > thr)).map g).sum := by
  induction L with
  | nil => simp
  | cons p L ih =>
    rw [List.map_cons, List.sum_cons, ih, List.filter_cons, List.filter_cons]
    by_cases h : p.1 f ≤ thr
    · have h' : ¬ p.1 f > thr := not_lt.2 h
      simp only [h, h', decide_true, decide_false, if_true, Bool.false_eq_true, if_false, List.map_cons, List.sum_cons]
      ring
    · have h' : p.1 f > thr := not_le.1 h
      simp only [h, h', decide_true, decide_false, if_true, Bool.false_eq_true, if_false, List.map_cons, List.sum_cons]
      ring

/-- The total of the targets that a node stands for: its weight times its value, nothing for a NaN. -/
def nodeTotal (st : Refill) (n k : Nat) : ℚ := st.weight n * (st.value n k).getD 0

/-- **C88, coherence.** After the refill, the weight of a node with children is the sum of the weights of its children, and its total of the
targets the sum of theirs; the root has the weight of all rows. So a later computation of the expectation along the tree is that of the data. -/
theorem C88_children {t : TreeArr} {d : Nat} (h : WellFormed t d) (rows : List (Row × (Nat → ℚ))) (st : Refill) :
    (rebuildTree t rows st).weight 0 = rows.length ∧
    (∀ k, nodeTotal (rebuildTree t rows st) 0 k = (rows.map fun p => p.2 k).sum) ∧
    ∀ n < t.size, 0 ≤ t.left n →
      (rebuildTree t rows st).weight n =
        (rebuildTree t rows st).weight (t.left n).toNat + (rebuildTree t rows st).weight (t.right n).toNat ∧
      ∀ k, nodeTotal (rebuildTree t rows st) n k =
        nodeTotal (rebuildTree t rows st) (t.left n).toNat k + nodeTotal (rebuildTree t rows st) (t.right n).toNat k := by
  classical
  obtain ⟨b, hb⟩ := h
  have hs := (rebuild_spec b hb.enc hb.nodup t.size (by rw [← ids_length hb]; exact b.height_lt) rows st).1
  rw [hb.root] at hs
  have ht : ∀ n ∈ b.ids, ∀ k, nodeTotal (rebuildTree t rows st) n k = ((through t 0 n rows).map fun p => p.2 k).sum := by
    intro n hn k
    unfold nodeTotal rebuildTree
    rw [(hs n hn).1, (hs n hn).2 k]
    unfold meanOut npDiv
    by_cases h0 : (through t 0 n rows) = []
    · simp [h0]
    · have hl : ((through t 0 n rows).length : ℚ) ≠ 0 := by exact_mod_cast (List.length_pos_iff.2 h0).ne'
      rw [if_neg hl, Option.getD_some]
      field_simp
  have h0 : (0 : Nat) ∈ b.ids := by rw [← hb.root]; exact BTree.id_mem_ids b
  have hself : through t 0 0 rows = rows := List.filter_eq_self.2 fun p _ => decide_eq_true (Visits.refl 0)
  refine ⟨?_, fun k => ?_, fun n hn hp => ?_⟩
  · unfold rebuildTree
    rw [(hs 0 h0).1, hself]
  · rw [ht 0 h0, hself]
  · obtain ⟨m, k', h1, h2, h3, h4, h5, h6⟩ := child_visits b hb.enc hb.nodup n ((hb.all n).2 hn) hp
    rw [hb.root] at h5 h6
    have hm : through t 0 m rows = (through t 0 n rows).filter fun p => decide (p.1 (t.feature n).toNat ≤ t.threshold n) := by
      unfold through
      rw [List.filter_filter]
      refine List.filter_congr fun p _ => ?_
      rw [Bool.eq_iff_iff]
      simp only [Bool.and_eq_true, decide_eq_true_eq]
      exact h5 p.1
    have hk : through t 0 k' rows = (through t 0 n rows).filter fun p => decide (p.1 (t.feature n).toNat > t.threshold n) := by
      unfold through
      rw [List.filter_filter]
      refine List.filter_congr fun p _ => ?_
      rw [Bool.eq_iff_iff]
      simp only [Bool.and_eq_true, decide_eq_true_eq]
      exact h6 p.1
    rw [h1, h2, Int.toNat_natCast, Int.toNat_natCast]
    have hcard : ∀ L : List (Row × (Nat → ℚ)), (L.length : ℚ) = (L.map fun _ => (1 : ℚ)).sum := by
      intro L; simp
    refine ⟨?_, fun k => ?_⟩
    · unfold rebuildTree
      rw [(hs n ((hb.all n).2 hn)).1, (hs m h3).1, (hs k' h4).1, hm, hk, hcard, hcard, hcard]
      exact sum_split _ _ _ _
    · rw [ht n ((hb.all n).2 hn), ht m h3, ht k' h4, hm, hk]
      exact sum_split _ _ _ _

/-! ## `leaves_proba` -/

theorem finalPart_tree (t : TreeArr) : ∀ (fuel id : Nat) (part : Nat → List Ival) (ids : List Int),
    finalPart (partTree t fuel id part) = (t.getPartition fuel id (finalPart part) ids).1 := by
  intro fuel
  induction fuel with
  | zero => exact fun _ _ _ => rfl
  | succ fuel ih =>
    intro id part ids
    unfold partTree TreeArr.getPartition
    rcases t.firstParent t.right id with _ | r
    · rcases t.firstParent t.left id with _ | l
      · rfl
      · simp only []
        rw [ih _ _ (ids ++ [t.feature l])]
        congr 2
        funext j
        unfold finalPart Rect.set Ival.below maxLo minHi
        by_cases hj : j = (t.feature l).toNat
        · subst hj
          simp only [if_true, List.filterMap_append, List.foldl_append]
          cases (List.foldl _ none (List.filterMap Ival.hi (part _))) <;> simp
        · simp only [if_neg hj]
    · simp only []
      rw [ih _ _ (ids ++ [t.feature r])]
      congr 2
      funext j
      unfold finalPart Rect.set Ival.above maxLo minHi
      by_cases hj : j = (t.feature r).toNat
      · subst hj
        simp only [if_true, List.filterMap_append, List.foldl_append]
        cases (List.foldl _ none (List.filterMap Ival.lo (part _))) <;> simp
      · simp only [if_neg hj]

theorem leavesProba_eq (t : TreeArr) (ℓ : Nat) (data : List Row) {S : List Nat} (hS : S ≠ []) :
    leavesProba t ℓ data S = cntCC data (t.leafRect ℓ) S := by
  unfold leavesProba cntCC
  rw [if_neg hS, finalPart_tree t _ _ _ [-1]]
  rfl

open Classical in
/-- **C88, `leaves_proba`.** It counts the rows that lie in the closed box of the leaf on the features asked for. So it counts every row whose
descent ends in the leaf, and, for all features and rows that lie on no split, exactly these. -/
theorem C88_leaves_proba {t : TreeArr} {d : Nat} (h : WellFormed t d) {ℓ : Nat} (hℓ : ℓ ∈ t.leafIdx) (data : List Row) {S : List Nat}
    (hS : S ≠ []) (hd : ∀ s ∈ S, s < d) :
    leavesProba t ℓ data S = (data.filter fun z => decide (∀ s ∈ S, InClosedIv (t.leafRect ℓ s) (z s))).length ∧
    (data.filter fun z => decide (EndsIn t (full z) ℓ)).length ≤ leavesProba t ℓ data S ∧
    ((∀ j < d, j ∈ S) → (∀ z ∈ data, OffSplits t z) →
      leavesProba t ℓ data S = (data.filter fun z => decide (EndsIn t (full z) ℓ)).length) := by
  have hcc : ∀ z : Row, satCC (t.leafRect ℓ) S z = true ↔ ∀ s ∈ S, InClosedIv (t.leafRect ℓ s) (z s) := by
    intro z
    unfold satCC
    rw [List.all_eq_true]
    refine forall₂_congr fun s _ => ?_
    rcases t.leafRect ℓ s with ⟨_ | l, _ | hh⟩ <;> simp [Ival.memCC, InClosedIv, and_comm]
  have hends : ∀ z : Row, EndsIn t (full z) ℓ ↔ InBox d (t.leafRect ℓ) z := by
    intro z
    rw [inBox_leaf_iff h z hℓ]
    refine ⟨fun he => ?_, fun he => he ▸ leafAt_endsIn h z⟩
    obtain ⟨b, hb⟩ := h
    rw [leafAt_eq hb]
    rw [endsIn_iff hb, descendObs_full] at he
    exact he.symm
  rw [leavesProba_eq t ℓ data hS]
  unfold cntCC
  refine ⟨?_, ?_, fun hall hoff => ?_⟩
  · congr 1
    refine List.filter_congr fun z _ => ?_
    rw [Bool.eq_iff_iff, hcc, decide_eq_true_eq]
  · refine (List.monotone_filter_right data fun z hz => ?_).length_le
    rw [decide_eq_true_eq, hends] at hz
    rw [hcc]
    exact fun s hs => ⟨fun l hl => ((hz s (hd s hs)).1 l hl).le, (hz s (hd s hs)).2⟩
  · congr 1
    refine List.filter_congr fun z hz => ?_
    rw [Bool.eq_iff_iff, hcc, decide_eq_true_eq, hends]
    refine ⟨fun hb s hs => ⟨fun l hl => lt_of_le_of_ne ((hb s (hall s hs)).1 l hl) fun he => ?_, (hb s (hall s hs)).2⟩,
      fun hb s hs => ⟨fun l hl => ((hb s (hd s hs)).1 l hl).le, (hb s (hd s hs)).2⟩⟩
    exact offSplits_lo h (hoff z hz) hℓ s (by rw [hl, he])

/-- **C88, without features `leaves_proba` is 1,** whatever the data: the empty product is the number 1, not one 1 per row. -/
theorem C88_leaves_proba_empty (t : TreeArr) (ℓ : Nat) (data : List Row) : leavesProba t ℓ data [] = 1 := if_pos rfl

/-- Four rows and two outputs for `sdpTree`. -/
def refillRows : List (Row × (Nat → ℚ)) :=
  [(row2 0 0, fun k => if k = 0 then 1 else 2), (row2 0 1, fun k => if k = 0 then 3 else 4),
   (row2 1 1, fun k => if k = 0 then 5 else 7), (row2 2 0, fun k => if k = 0 then 2 else 0)]

/-- A well-formed tree, and rows that miss one leaf: its value is NaN. -/
example : WellFormed sdpTree 2 ∧
    ((List.range 6).map (rebuildTree sdpTree refillRows ⟨fun _ => 9, fun _ _ => some 9⟩).weight) = [4, 2, 2, 2, 0, 9] ∧
    ((List.range 6).map fun n => (rebuildTree sdpTree refillRows ⟨fun _ => 9, fun _ _ => some 9⟩).value n 0) =
      [some (11 / 4), some (3 / 2), some 4, some 4, none, some 9] ∧
    ((List.range 6).map fun n => (rebuildTree sdpTree refillRows ⟨fun _ => 9, fun _ _ => some 9⟩).value n 1) =
      [some (13 / 4), some 1, some (11 / 2), some (11 / 2), none, some 9] :=
  ⟨sdpTree_wf, by decide +kernel, by decide +kernel, by decide +kernel⟩

/-- Rows off the splits, and one on a split that is counted in two leaves. -/
example : sdpTree.leafIdx = [1, 3, 4] ∧ (∀ z ∈ [row2 0 0, row2 2 1], OffSplits sdpTree z) ∧
    [1, 3, 4].map (fun ℓ => leavesProba sdpTree ℓ [row2 0 0, row2 2 1] [0, 1]) = [1, 0, 1] ∧
    [1, 3, 4].map (fun ℓ => leavesProba sdpTree ℓ [row2 0 0, row2 (3 / 2) 1] [0, 1]) = [1, 1, 1] := by
  refine ⟨by decide +kernel, ?_, by decide +kernel, by decide +kernel⟩
  have h : ∀ z ∈ [row2 0 0, row2 2 1], ∀ n < 5, 0 ≤ sdpTree.left n → z (sdpTree.feature n).toNat ≠ sdpTree.threshold n := by
    decide +kernel
  exact fun z hz n hn hl => h z hz n hn hl

end Acv
