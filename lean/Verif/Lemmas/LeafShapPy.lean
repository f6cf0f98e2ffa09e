import Verif.Lemmas.LeafShap
import Verif.Model.LeafShapPy

namespace Acv

/-! ### option sums -/

theorem osum_foldl (l : List ℚ) : ∀ a : ℚ,
    (l.map some).foldl (fun a b => do return (← a) + (← b)) (some a) = some (a + l.sum) := by
  induction l with
  | nil => intro a; simp
  | cons b l ih =>
    intro a
    rw [List.map_cons, List.foldl_cons]
    have : (do return (← some a) + (← some b) : Option ℚ) = some (a + b) := rfl
    rw [this, ih, List.sum_cons, add_assoc]

theorem osum_some (l : List ℚ) : osum (l.map some) = some l.sum := by
  unfold osum; rw [osum_foldl, zero_add]

theorem osum_of_forall {ι : Type} (l : List ι) (f : ι → Option ℚ) (g : ι → ℚ) (h : ∀ a ∈ l, f a = some (g a)) :
    osum (l.map f) = some (l.map g).sum := by
  rw [← osum_some, List.map_map]
  congr 1
  exact List.map_congr_left h

theorem osum_none {l : List (Option ℚ)} (h : none ∈ l) : osum l = none := by
  unfold osum
  have hn : ∀ l : List (Option ℚ), l.foldl (fun a b => do return (← a) + (← b)) none = none := by
    intro l
    induction l with
    | nil => rfl
    | cons b l ih => rw [List.foldl_cons]; exact ih
  generalize (some 0 : Option ℚ) = a
  induction l generalizing a with
  | nil => simp at h
  | cons b l ih =>
    rw [List.foldl_cons]
    rcases List.mem_cons.mp h with rfl | h
    · have : (do return (← a) + (← none) : Option ℚ) = none := by cases a <;> rfl
      rw [this, hn]
    · exact ih h _

theorem mapM_ok {α β : Type} (l : List α) (f : α → Except Unit β) (g : α → β) (h : ∀ a ∈ l, f a = .ok (g a)) :
    l.mapM f = .ok (l.map g) := by
  induction l with
  | nil => rfl
  | cons a l ih =>
    rw [List.mapM_cons, h a (by simp), ih (fun b hb => h b (by simp [hb]))]
    rfl

/-! ### powerset -/

theorem combos_perm {α : Type} : ∀ (r : Nat) (l : List α), (combos r l).Perm (List.sublistsLen r l)
  | 0, l => by simp [combos]
  | r + 1, [] => by simp [combos]
  | r + 1, a :: l => by
    rw [combos, List.sublistsLen_succ_cons]
    exact (((combos_perm r l).map _).append (combos_perm (r + 1) l)).trans List.perm_append_comm

theorem mem_combos {α : Type} {r : Nat} {l s : List α} : s ∈ combos r l ↔ s.Sublist l ∧ s.length = r := by
  rw [(combos_perm r l).mem_iff, List.mem_sublistsLen]

theorem combos_map {α β : Type} (f : α → β) : ∀ (r : Nat) (l : List α), combos r (l.map f) = (combos r l).map (List.map f)
  | 0, l => by simp [combos]
  | r + 1, [] => by simp [combos]
  | r + 1, a :: l => by
    rw [List.map_cons, combos, combos, combos_map f r l, combos_map f (r + 1) l, List.map_append, List.map_map, List.map_map]
    rfl

theorem powerset_perm {α : Type} (l : List α) : (powerset l).Perm (List.sublists' l) := by
  refine List.Perm.trans ?_ (List.range_bind_sublistsLen_perm l)
  unfold powerset
  exact List.Perm.flatMap_left _ (fun r _ => combos_perm r l)

theorem powerset_sum {α : Type} [DecidableEq α] (l : List α) (hnd : l.Nodup) (f : List α → ℚ) (F : Finset α → ℚ)
    (h : ∀ sel, sel.Sublist l → f sel = F sel.toFinset) :
    ((powerset l).map f).sum = ∑ S ∈ l.toFinset.powerset, F S := by
  have hp : (powerset l).Perm (List.sublists' l) := powerset_perm l
  rw [(hp.map f).sum_eq]
  clear hp
  induction l generalizing f F with
  | nil => simp [h [] (List.Sublist.refl _)]
  | cons a l ih =>
    rw [List.nodup_cons] at hnd
    rw [List.sublists'_cons, List.map_append, List.sum_append, List.map_map, List.toFinset_cons,
      Finset.sum_powerset_insert (by simpa using hnd.1)]
    rw [ih hnd.2 f F (fun sel hs => h sel (hs.cons a)),
      ih hnd.2 (f ∘ List.cons a) (fun S => F (insert a S)) (by
        intro sel hs; simp only [Function.comp]; rw [h (a :: sel) (hs.cons_cons a), List.toFinset_cons])]

theorem powerset_map {α β : Type} (f : α → β) (l : List α) : powerset (l.map f) = (powerset l).map (List.map f) := by
  unfold powerset
  rw [List.length_map, List.map_flatMap]
  congr 1
  funext r
  rw [combos_map]

theorem mem_powerset {α : Type} {l s : List α} : s ∈ powerset l ↔ s.Sublist l := by
  unfold powerset
  simp only [List.mem_flatMap, List.mem_range, mem_combos]
  constructor
  · rintro ⟨_, _, h, _⟩; exact h
  · intro h; exact ⟨s.length, Nat.lt_succ_of_le h.length_le, h, rfl⟩

/-! ### weights -/

theorem pyCoef_eq {m k s : Nat} (hk : k < m) (hs : s ≤ k) : pyCoef m k s / m = shapW (k + 1) s := by
  have hpos : ∀ l, l ≤ m - k - 1 → ((m - 1).choose (l + s) : ℚ) ≠ 0 := by
    intro l hl
    have := Nat.choose_pos (show l + s ≤ m - 1 by omega)
    positivity
  unfold pyCoef
  have h0 := hpos 0 (by omega)
  rw [Nat.zero_add] at h0
  have hsum := shapW_sum (k + 1) (m - k - 1) s (by omega)
  have e : k + 1 + (m - k - 1) = m := by omega
  rw [e] at hsum
  rw [← hsum, Finset.sum_range_succ']
  have hW : ∀ l, l ≤ m - k - 1 → shapW m (s + l) = 1 / (m * ((m - 1).choose (l + s) : ℚ)) := by
    intro l hl; rw [shapW_eq (by omega), Nat.add_comm s l]
  have hm0 : (m : ℚ) ≠ 0 := by
    have : 0 < m := by omega
    positivity
  rw [add_div, hW 0 (by omega), add_comm]
  congr 1
  · rw [List.range'_eq_map_range, List.map_map]
    rw [← List.sum_toFinset _ (List.nodup_range)]
    have : (List.range (m - k - 1)).toFinset = Finset.range (m - k - 1) := by ext; simp
    rw [this, Finset.sum_div]
    apply Finset.sum_congr rfl
    intro l hl
    have hl' := Finset.mem_range.mp hl
    rw [hW (l + 1) (by omega)]
    simp only [Function.comp]
    have := hpos (l + 1) (by omega)
    rw [Nat.add_comm 1 l]
    field_simp
  · simp only [Nat.choose_zero_right, Nat.zero_add]
    field_simp
    simp

/-! ### terms -/

theorem cnt_mono {data : List Row} {r : Rect} {S T : List Nat} (h : ∀ s ∈ S, s ∈ T) : cnt data r T ≤ cnt data r S := by
  unfold cnt
  rw [← List.countP_eq_length_filter, ← List.countP_eq_length_filter]
  apply List.countP_mono_left
  intro z _ hz
  rw [sat_iff] at hz ⊢
  exact fun s hs => hz s (h s hs)

open Classical in
theorem pyTerm_eq {m d k : Nat} {data : List Row} {r : Rect} {x : Row} {sel : List (List Nat)} {g : List Nat} {v : ℚ}
    (hlm : 0 < cnt data r (List.range m)) (hsel : ∀ c ∈ sel, ∀ s ∈ c, s < m) (hg : ∀ s ∈ g, s < m) :
    pyTerm m d k sel.length data r x sel.flatten g v =
      some (pyCoef d k sel.length * (leafShare m data r x (insert g sel.toFinset)
          - leafShare m data r x sel.toFinset) * v) := by
  have hselr : ∀ s ∈ sel.flatten, s ∈ List.range m := by
    intro s hs; obtain ⟨c, hc, hsc⟩ := List.mem_flatten.mp hs; exact List.mem_range.mpr (hsel c hc s hsc)
  have h1 : 0 < cnt data r (sel.flatten ++ g) := lt_of_lt_of_le hlm (cnt_mono (by
    intro s hs
    rcases List.mem_append.mp hs with h | h
    · exact hselr s h
    · exact List.mem_range.mpr (hg s h)))
  have h2 : 0 < cnt data r sel.flatten := lt_of_lt_of_le hlm (cnt_mono hselr)
  have h3 : 0 < data.length := lt_of_lt_of_le hlm (List.length_filter_le _ _)
  have hsat : ∀ z, sat r (sel.flatten ++ g) z = decide (AgreesOn r (insert g sel.toFinset) z) := by
    intro z
    rw [Bool.eq_iff_iff]
    simp only [decide_eq_true_eq, agreesOn_insert, ← sat_flatten]
    simp [sat]
  have hsat' : ∀ z, sat r sel.flatten z = decide (AgreesOn r sel.toFinset z) := by
    intro z; rw [Bool.eq_iff_iff, sat_flatten]; simp
  have hc1 : cnt data r (sel.flatten ++ g) = (data.filter (fun z => AgreesOn r (insert g sel.toFinset) z)).length := by
    unfold cnt; congr 2; funext z; exact hsat z
  unfold pyTerm
  have n1 : ((cnt data r (sel.flatten ++ g) : ℕ) : ℚ) ≠ 0 := by positivity
  have n2 : ((cnt data r sel.flatten : ℕ) : ℚ) ≠ 0 := by positivity
  have n3 : ((data.length : ℕ) : ℚ) ≠ 0 := by positivity
  have e1 : npDiv ((if sat r (sel.flatten ++ g) x then 1 else 0) * ((cnt data r (List.range m) : ℕ) : ℚ))
      (cnt data r (sel.flatten ++ g)) = some (leafShare m data r x (insert g sel.toFinset)) := by
    unfold npDiv
    rw [if_neg n1, hsat x]
    unfold leafShare
    rw [hc1, cnt_range]
    by_cases ha : AgreesOn r (insert g sel.toFinset) x <;> simp [ha]
  have e2 : (if sel.length = 0 then npDiv ((cnt data r (List.range m) : ℕ) : ℚ) data.length
      else npDiv ((if sat r sel.flatten x then 1 else 0) * ((cnt data r (List.range m) : ℕ) : ℚ))
        (cnt data r sel.flatten)) = some (leafShare m data r x sel.toFinset) := by
    by_cases h0 : sel.length = 0
    · have : sel = [] := List.eq_nil_of_length_eq_zero h0
      subst this
      unfold npDiv
      rw [if_pos h0, if_neg n3]
      unfold leafShare
      have hall : ∀ z, AgreesOn r (([] : List (List Nat)).toFinset) z := by intro z g hg; simp at hg
      rw [if_pos (hall x), cnt_range]
      simp only [hall, decide_true, List.filter_true]
    · unfold npDiv
      rw [if_neg h0, if_neg n2, hsat' x]
      unfold leafShare
      rw [cnt_flatten, cnt_range]
      by_cases ha : AgreesOn r sel.toFinset x <;> simp [ha]
  simp only [e1, e2]
  rfl

/-! ### writes -/

/-- common shape of the writes of one leaf -/
def absWrites {ι : Type} (m d : Nat) (data : List Row) (r : Rect) (x : Row) (v : ℚ) (Q : List ι) (cols : ι → List Nat)
    (R : ι → List (List Nat)) : List (Nat × Option ℚ) :=
  Q.flatMap fun i => (powerset (R i)).flatMap fun S =>
    (cols i).map fun j => (j, pyTerm m d (R i).length S.length data r x S.flatten (cols i) v)

theorem cellWrites_flatMap {ι : Type} (l : List ι) (f : ι → List (Nat × Option ℚ)) (j : Nat) :
    cellWrites (l.flatMap f) j = l.flatMap fun a => cellWrites (f a) j := by
  unfold cellWrites
  rw [List.filter_flatMap, List.map_flatMap]

theorem flatMap_unique {ι β : Type} {Q : List ι} (hQ : Q.Nodup) {i : ι} (hi : i ∈ Q) (f : ι → List β)
    (h : ∀ a ∈ Q, a ≠ i → f a = []) : Q.flatMap f = f i := by
  induction Q with
  | nil => simp at hi
  | cons a Q ih =>
    rw [List.nodup_cons] at hQ
    rw [List.flatMap_cons]
    rcases List.mem_cons.mp hi with rfl | hi
    · have : Q.flatMap f = [] := by
        rw [List.flatMap_eq_nil_iff]
        intro b hb
        exact h b (by simp [hb]) (fun e => hQ.1 (e ▸ hb))
      rw [this, List.append_nil]
    · rw [h a (by simp) (fun e => hQ.1 (e ▸ hi)), List.nil_append]
      exact ih hQ.2 hi (fun b hb hne => h b (by simp [hb]) hne)

theorem cellWrites_map_const (g : List Nat) (w : Option ℚ) (j : Nat) :
    cellWrites (g.map fun j => (j, w)) j = List.replicate (g.count j) w := by
  unfold cellWrites
  induction g with
  | nil => simp
  | cons a g ih =>
    rw [List.map_cons, List.filter_cons]
    by_cases h : a = j
    · subst h; simp only [decide_true, if_true, List.map_cons, ih, List.count_cons_self, List.replicate_succ]
    · simp only [h, decide_false, Bool.false_eq_true, if_false, ih, List.count_cons_of_ne h]

open Classical in
theorem leafShare_null {t : TreeArr} {m : Nat} (ht : WellFormed t m) {ℓ : Nat} (hℓ : ℓ ∈ t.leafIdx) {data : List Row}
    (x : Row) {a : List Nat} (hna : ∀ s ∈ a, s ∉ t.leafCols ℓ) (S : Finset (List Nat)) :
    leafShare m data (t.leafRect ℓ) x (insert a S) = leafShare m data (t.leafRect ℓ) x S := by
  obtain ⟨hnd, hlt, hun⟩ := leafCols_spec ht hℓ
  have hfree : ∀ z, AgreesOn (t.leafRect ℓ) (insert a S) z ↔ AgreesOn (t.leafRect ℓ) S z := by
    intro z
    rw [agreesOn_insert, sat_iff]
    refine ⟨fun h => h.1, fun h => ⟨h, ?_⟩⟩
    intro s hs
    rw [hun s (hna s hs)]; simp [Ival.all]
  unfold leafShare
  simp only [hfree]

theorem absLeaf {t : TreeArr} {m : Nat} (ht : WellFormed t m) {ℓ : Nat} (hℓ : ℓ ∈ t.leafIdx) {data : List Row}
    {C : List (List Nat)} (hC : ValidGroups m C) (x : Row) (v : ℚ) {d : Nat} (hd : (playerSet m C).card ≤ d)
    {ι : Type} {Q : List ι} {cols : ι → List Nat} {R : ι → List (List Nat)} (hQn : Q.Nodup)
    (hinj : ∀ a ∈ Q, ∀ b ∈ Q, cols a = cols b → a = b)
    (hQ : ∀ c, (∃ i ∈ Q, cols i = c) ↔ c ∈ playerSet m C ∧ ∃ s ∈ t.leafCols ℓ, s ∈ c)
    (hRn : ∀ i ∈ Q, (R i).Nodup)
    (hR : ∀ i ∈ Q, ∀ c, c ∈ R i ↔ (c ∈ playerSet m C ∧ ∃ s ∈ t.leafCols ℓ, s ∈ c) ∧ c ≠ cols i)
    (hlm : 0 < cnt data (t.leafRect ℓ) (List.range m)) {g : List Nat} (hg : g ∈ playerSet m C) {j : Nat} (hj : j ∈ g) :
    ∃ l : List ℚ, cellWrites (absWrites m d data (t.leafRect ℓ) x v Q cols R) j = l.map some ∧
      l.sum / d = v * shapley (playerSet m C) (leafShare m data (t.leafRect ℓ) x) g := by
  classical
  unfold absWrites
  rw [cellWrites_flatMap]
  simp only [cellWrites_flatMap, cellWrites_map_const]
  by_cases hgl : ∃ s ∈ t.leafCols ℓ, s ∈ g
  · obtain ⟨i0, hi0, rfl⟩ := (hQ g).mpr ⟨hg, hgl⟩
    rw [flatMap_unique hQn hi0]
    swap
    · intro a ha hne
      have hca := ((hQ (cols a)).mp ⟨a, ha, rfl⟩).1
      have : (cols a).count j = 0 := List.count_eq_zero_of_not_mem fun hja =>
        hne (hinj a ha i0 hi0 (playerSet_disjoint hC hca hg hja hj))
      simp [this]
    have hone : (cols i0).count j = 1 := List.count_eq_one_of_mem (playerSet_lt hC hg).2.1 hj
    have hrlt : ∀ c ∈ R i0, ∀ s ∈ c, s < m := fun c hc =>
      (playerSet_lt hC ((hR i0 hi0 c).mp hc).1.1).2.2
    refine ⟨(powerset (R i0)).map fun S => pyCoef d (R i0).length S.length *
      (leafShare m data (t.leafRect ℓ) x (insert (cols i0) S.toFinset)
          - leafShare m data (t.leafRect ℓ) x S.toFinset) * v, ?_, ?_⟩
    · rw [List.map_map]
      simp only [hone, List.replicate_one]
      rw [← List.map_eq_flatMap]
      apply List.map_congr_left
      intro S hS
      exact pyTerm_eq hlm (fun c hc => hrlt c ((mem_powerset.mp hS).subset hc)) (playerSet_lt hC hg).2.2
    · rw [powerset_sum (R i0) (hRn i0 hi0) _ (fun S => pyCoef d (R i0).length S.card *
        (leafShare m data (t.leafRect ℓ) x (insert (cols i0) S)
          - leafShare m data (t.leafRect ℓ) x S) * v) (by
          intro sel hs
          rw [List.toFinset_card_of_nodup ((hRn i0 hi0).sublist hs)])]
      have hns : cols i0 ∉ (R i0).toFinset := by
        rw [List.mem_toFinset, hR i0 hi0]; simp
      have hsub : insert (cols i0) (R i0).toFinset ⊆ playerSet m C := by
        intro c hc
        rcases Finset.mem_insert.mp hc with rfl | hc
        · exact hg
        · exact ((hR i0 hi0 c).mp (List.mem_toFinset.mp hc)).1.1
      rw [shapley_restrict hsub (Finset.mem_insert_self _ _) (by
        intro a ha hna S
        apply leafShare_null ht hℓ
        intro s hs hsl
        apply hna
        by_cases he : a = cols i0
        · rw [he]; exact Finset.mem_insert_self _ _
        · exact Finset.mem_insert_of_mem (List.mem_toFinset.mpr ((hR i0 hi0 a).mpr ⟨⟨ha, s, hsl, hs⟩, he⟩)))]
      unfold shapley
      rw [Finset.erase_insert hns, Finset.card_insert_of_notMem hns, Finset.sum_div, Finset.mul_sum]
      have hcard : (R i0).toFinset.card = (R i0).length := List.toFinset_card_of_nodup (hRn i0 hi0)
      have hle : (R i0).length + 1 ≤ d := by
        have := Finset.card_le_card hsub
        rw [Finset.card_insert_of_notMem hns, hcard] at this
        omega
      apply Finset.sum_congr rfl
      intro S hS
      have hSc : S.card ≤ (R i0).length := by
        rw [← hcard]; exact Finset.card_le_card (Finset.mem_powerset.mp hS)
      rw [hcard, ← pyCoef_eq (m := d) (by omega) hSc]
      ring
  · refine ⟨[], ?_, ?_⟩
    · rw [List.map_nil, List.flatMap_eq_nil_iff]
      intro a ha
      have hca := (hQ (cols a)).mp ⟨a, ha, rfl⟩
      have : (cols a).count j = 0 := List.count_eq_zero_of_not_mem fun hja => by
        have := playerSet_disjoint hC hca.1 hg hja hj
        exact hgl (this ▸ hca.2)
      simp [this]
    · rw [shapley_null]
      · simp
      · intro S
        exact leafShare_null ht hℓ x (fun s hs hsl => hgl ⟨s, hsl, hs⟩) S

end Acv
