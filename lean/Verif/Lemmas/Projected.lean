import Verif.Spec.Projected
import Verif.Lemmas.LeafShap

namespace Acv

variable {mem : Mem} {push : List Int → Int → List Int} {S : List Nat} {x z : Row} {data : Nat → Row} {minSize : Nat}

/-! ### induction over the walk -/

theorem scan_induct {P : PState → Prop} (h : ∀ n st, P st → P (mem.visit push S x data n st)) :
    ∀ nodes st, P st → P (mem.scan push S x data minSize nodes st)
  | [], _, hp => hp
  | n :: ns, st, hp => by
    unfold Mem.scan
    simp only
    split
    · exact h n st hp
    · exact scan_induct h ns _ (h n st hp)

theorem levels_induct {P : PState → Prop} (h : ∀ n st, P st → P (mem.visit push S x data n st)) :
    ∀ k nodes st, P st → P (mem.levels push S x data minSize k nodes st)
  | 0, _, _, hp => hp
  | k + 1, nodes, st, hp => levels_induct h k _ _ (scan_induct h nodes st hp)

theorem inS_iff {S : List Nat} {f : Int} : inS S f = true ↔ 0 ≤ f ∧ f.toNat ∈ S := by simp [inS]

/-! ### rows -/

theorem run_sublist {maxDepth N : Nat} {r : Rule} :
    (mem.run push S x data minSize maxDepth N r).1.Sublist (List.range N) := by
  unfold Mem.run
  apply levels_induct (P := fun st => st.rows.Sublist (List.range N))
  · intro n st hst
    unfold Mem.visit
    simp only
    split
    · split <;> exact List.filter_sublist.trans hst
    · exact hst
  · exact List.Sublist.refl _

theorem run_keeps {maxDepth N : Nat} {r : Rule} {i : Nat} (hi : i < N) (hz : SameOn S x (data i)) :
    i ∈ (mem.run push S x data minSize maxDepth N r).1 := by
  unfold Mem.run
  apply levels_induct (P := fun st => i ∈ st.rows)
  · intro n st hst
    unfold Mem.visit
    simp only
    split
    · rename_i hf
      have he := hz _ (inS_iff.mp hf).2
      split
      · rename_i hx
        simp [hst, he, hx]
      · rename_i hx
        simp only [List.mem_filter]
        rw [he]
        simp [hst, hx]
    · exact hst
  · simpa using hi

/-! ### rules -/

/-- `r'` is at least as tight as `r` -/
def Rule.le (r' r : Rule) : Prop := ∀ j, (r j).1 ≤ (r' j).1 ∧ (r' j).2 ≤ (r j).2

theorem Rule.le_refl (r : Rule) : r.le r := fun _ => ⟨_root_.le_refl _, _root_.le_refl _⟩

theorem Rule.le_trans {a b c : Rule} (h : a.le b) (h' : b.le c) : a.le c :=
  fun j => ⟨_root_.le_trans (h' j).1 (h j).1, _root_.le_trans (h j).2 (h' j).2⟩

theorem Rule.below_le (r : Rule) (f : Nat) (t : ℚ) : (r.below f t).le r := by
  intro j
  unfold Rule.below
  split
  · rename_i h; subst h; split
    · rename_i h; exact ⟨_root_.le_refl _, h⟩
    · exact ⟨_root_.le_refl _, _root_.le_refl _⟩
  · exact ⟨_root_.le_refl _, _root_.le_refl _⟩

theorem Rule.above_le (r : Rule) (f : Nat) (t : ℚ) : (r.above f t).le r := by
  intro j
  unfold Rule.above
  split
  · rename_i h; subst h; split
    · rename_i h; exact ⟨h, _root_.le_refl _⟩
    · exact ⟨_root_.le_refl _, _root_.le_refl _⟩
  · exact ⟨_root_.le_refl _, _root_.le_refl _⟩

theorem Rule.below_hi (r : Rule) (f : Nat) (t : ℚ) : ((r.below f t) f).2 ≤ t := by
  unfold Rule.below
  simp only [if_true]
  split
  · exact _root_.le_refl _
  · rename_i h; exact le_of_lt (not_le.mp h)

theorem Rule.above_lo (r : Rule) (f : Nat) (t : ℚ) : t ≤ ((r.above f t) f).1 := by
  unfold Rule.above
  simp only [if_true]
  split
  · exact _root_.le_refl _
  · rename_i h; exact le_of_lt (not_le.mp h)

theorem visit_rule_le (n : Int) (st : PState) : (mem.visit push S x data n st).rule.le st.rule := by
  unfold Mem.visit
  simp only
  split
  · split
    · exact Rule.below_le _ _ _
    · exact Rule.above_le _ _ _
  · exact Rule.le_refl _

theorem scan_rule_le (nodes : List Int) (st : PState) : (mem.scan push S x data minSize nodes st).rule.le st.rule :=
  scan_induct (P := fun s => s.rule.le st.rule) (fun n _ h => Rule.le_trans (visit_rule_le n _) h) nodes st (Rule.le_refl _)

theorem levels_rule_le (k : Nat) (nodes : List Int) (st : PState) :
    (mem.levels push S x data minSize k nodes st).rule.le st.rule :=
  levels_induct (P := fun s => s.rule.le st.rule) (fun n _ h => Rule.le_trans (visit_rule_le n _) h) k nodes st (Rule.le_refl _)

theorem forestRun_rule_le {maxDepth N : Nat} : ∀ (mems : List Mem) (r : Rule),
    (forestRun push S x data minSize maxDepth N mems r).2.le r
  | [], r => Rule.le_refl _
  | mem :: mems, r => Rule.le_trans (forestRun_rule_le mems _) (levels_rule_le _ _ _)

/-- in the rule, on the columns of `S` -/
def InRuleS (S : List Nat) (r : Rule) (z : Row) : Prop := ∀ j ∈ S, (r j).1 < z j ∧ z j ≤ (r j).2

theorem InRuleS.mono {S : List Nat} {r r' : Rule} {z : Row} (h : InRuleS S r' z) (hle : r'.le r) : InRuleS S r z :=
  fun j hj => ⟨lt_of_le_of_lt (hle j).1 (h j hj).1, le_trans (h j hj).2 (hle j).2⟩

theorem visit_same (n : Int) (st : PState) (h : InRuleS S (mem.visit push S x data n st).rule z) :
    mem.visit push S z data n st = mem.visit push S x data n st := by
  unfold Mem.visit at h ⊢
  simp only at h ⊢
  split
  · rename_i hf
    rw [if_pos hf] at h
    have hmem := (inS_iff.mp hf).2
    split at h
    · rename_i hx
      have := le_trans (h _ hmem).2 (Rule.below_hi _ _ _)
      rw [if_pos this, if_pos hx]
    · rename_i hx
      have := lt_of_le_of_lt (Rule.above_lo _ _ _) (h _ hmem).1
      rw [if_neg (not_le.mpr this), if_neg hx]
  · rfl

theorem scan_same : ∀ (nodes : List Int) (st : PState), InRuleS S (mem.scan push S x data minSize nodes st).rule z →
    mem.scan push S z data minSize nodes st = mem.scan push S x data minSize nodes st
  | [], _, _ => rfl
  | n :: ns, st, h => by
    unfold Mem.scan at h ⊢
    simp only at h ⊢
    split at h
    · rename_i hlt
      rw [visit_same n st h, if_pos hlt, if_pos hlt]
    · rename_i hlt
      have h1 := visit_same n st (h.mono (scan_rule_le ns _))
      rw [h1]
      split
      · rfl
      · exact scan_same ns _ h

theorem levels_same : ∀ (k : Nat) (nodes : List Int) (st : PState),
    InRuleS S (mem.levels push S x data minSize k nodes st).rule z →
    mem.levels push S z data minSize k nodes st = mem.levels push S x data minSize k nodes st
  | 0, _, _, _ => rfl
  | k + 1, nodes, st, h => by
    unfold Mem.levels at h ⊢
    simp only at h ⊢
    rw [scan_same nodes st (h.mono (levels_rule_le _ _ _))]
    exact levels_same k _ _ h

theorem forestRun_same {maxDepth N : Nat} : ∀ (mems : List Mem) (r : Rule),
    InRuleS S (forestRun push S x data minSize maxDepth N mems r).2 z →
    forestRun push S z data minSize maxDepth N mems r = forestRun push S x data minSize maxDepth N mems r
  | [], _, _ => rfl
  | mem :: mems, r, h => by
    unfold forestRun at h ⊢
    simp only at h ⊢
    have h1 : mem.run push S z data minSize maxDepth N r = mem.run push S x data minSize maxDepth N r := by
      unfold Mem.run
      simp only
      rw [levels_same _ _ _ (h.mono (forestRun_rule_le mems _))]
    rw [h1, forestRun_same mems _ h]

theorem visit_contains {m : Nat} (n : Int) (st : PState) (h : InRule m st.rule x) :
    InRule m (mem.visit push S x data n st).rule x := by
  unfold Mem.visit
  simp only
  split
  · split
    · rename_i hx
      intro j hj
      simp only [Rule.below]
      split
      · rename_i hjf
        subst hjf
        split
        · exact ⟨(h _ hj).1, hx⟩
        · exact h _ hj
      · exact h _ hj
    · rename_i hx
      intro j hj
      simp only [Rule.above]
      split
      · rename_i hjf
        subst hjf
        split
        · exact ⟨not_le.mp hx, (h _ hj).2⟩
        · exact h _ hj
      · exact h _ hj
  · exact h

theorem forestRun_contains {m maxDepth N : Nat} : ∀ (mems : List Mem) (r : Rule), InRule m r x →
    InRule m (forestRun push S x data minSize maxDepth N mems r).2 x
  | [], _, h => h
  | mem :: mems, r, h => by
    unfold forestRun
    simp only
    apply forestRun_contains mems
    exact levels_induct (P := fun st => InRule m st.rule x) (fun n st => visit_contains n st) _ _ _ h

/-! ### cells -/

theorem forestRun_length {maxDepth N : Nat} : ∀ (mems : List Mem) (r : Rule),
    (forestRun push S x data minSize maxDepth N mems r).1.length = mems.length
  | [], _ => rfl
  | mem :: mems, r => by
    unfold forestRun
    simp only [List.length_cons]
    rw [forestRun_length mems]

theorem forestRun_cells {maxDepth N : Nat} : ∀ (mems : List Mem) (r : Rule) (c : List Nat),
    c ∈ (forestRun push S x data minSize maxDepth N mems r).1 → ∃ mem ∈ mems, ∃ r', c = (mem.run push S x data minSize maxDepth N r').1
  | [], _, _, h => by simp [forestRun] at h
  | mem :: mems, r, c, h => by
    unfold forestRun at h
    simp only [List.mem_cons] at h
    rcases h with h | h
    · exact ⟨mem, by simp, r, h⟩
    · obtain ⟨m', h1, h2⟩ := forestRun_cells mems _ c h
      exact ⟨m', List.mem_cons_of_mem _ h1, h2⟩

theorem forestRun_sublist {maxDepth N : Nat} {mems : List Mem} {r : Rule} {c : List Nat}
    (h : c ∈ (forestRun push S x data minSize maxDepth N mems r).1) : c.Sublist (List.range N) := by
  obtain ⟨mem, _, r', rfl⟩ := forestRun_cells mems r c h
  exact run_sublist

theorem forestRun_keeps {maxDepth N : Nat} {mems : List Mem} {r : Rule} {i : Nat} (hi : i < N) (hz : SameOn S x (data i))
    {c : List Nat} (h : c ∈ (forestRun push S x data minSize maxDepth N mems r).1) : i ∈ c := by
  obtain ⟨mem, _, r', rfl⟩ := forestRun_cells mems r c h
  exact run_keeps hi hz

/-! ### sums over cells -/

/-- fraction of non-empty cells -/
def liveFrac (cells : List (List Nat)) : ℚ := (cells.filter (· ≠ [])).length / cells.length

theorem cellSum_one (cells : List (List Nat)) : cellSum cells (fun _ => 1) = liveFrac cells := by
  unfold cellSum liveFrac
  generalize (cells.length : ℚ) = n
  induction cells with
  | nil => simp
  | cons c cells ih =>
    rw [List.map_cons, List.sum_cons, ih, List.filter_cons]
    by_cases hc : c = []
    · simp [hc]
    · have hl : (c.length : ℚ) ≠ 0 := by simpa using hc
      simp only [mul_one, List.map_const', List.sum_replicate, nsmul_eq_mul, ne_eq, hc, not_false_eq_true, decide_true,
        if_true, List.length_cons]
      by_cases hn : n = 0
      · simp [hn]
      · push_cast; field_simp; ring

theorem cellSum_add (cells : List (List Nat)) (f g : Nat → ℚ) :
    cellSum cells (fun i => f i + g i) = cellSum cells f + cellSum cells g := by
  unfold cellSum
  rw [← sum_map_add]
  congr 1
  apply List.map_congr_left
  intro c _
  rw [← sum_map_add]
  congr 1
  apply List.map_congr_left
  intro i _
  ring

theorem cellSum_mul (cells : List (List Nat)) (f : Nat → ℚ) (a : ℚ) :
    cellSum cells (fun i => a * f i) = a * cellSum cells f := by
  unfold cellSum
  rw [← List.sum_map_mul_left]
  congr 1
  apply List.map_congr_left
  intro c _
  rw [← List.sum_map_mul_left]
  congr 1
  apply List.map_congr_left
  intro i _
  ring

theorem cellSum_mono {cells : List (List Nat)} {f g : Nat → ℚ} (h : ∀ c ∈ cells, ∀ i ∈ c, f i ≤ g i) :
    cellSum cells f ≤ cellSum cells g := by
  unfold cellSum
  apply List.sum_le_sum
  intro c hc
  apply List.sum_le_sum
  intro i hi
  apply mul_le_mul_of_nonneg_left (h c hc i hi)
  exact div_nonneg zero_le_one (mul_nonneg (Nat.cast_nonneg _) (Nat.cast_nonneg _))

theorem cellSum_congr {cells : List (List Nat)} {f g : Nat → ℚ} (h : ∀ c ∈ cells, ∀ i ∈ c, f i = g i) :
    cellSum cells f = cellSum cells g :=
  le_antisymm (cellSum_mono fun c hc i hi => le_of_eq (h c hc i hi)) (cellSum_mono fun c hc i hi => ge_of_eq (h c hc i hi))

theorem cellSum_zero (cells : List (List Nat)) : cellSum cells (fun _ => 0) = 0 := by
  have := cellSum_mul cells (fun _ => 1) 0
  simpa using this

theorem liveFrac_le_one (cells : List (List Nat)) : liveFrac cells ≤ 1 := by
  unfold liveFrac
  apply div_le_one_of_le₀ _ (Nat.cast_nonneg _)
  exact_mod_cast List.length_filter_le _ _

theorem liveFrac_eq_one {cells : List (List Nat)} (hne : cells ≠ []) (h : ∀ c ∈ cells, c ≠ []) : liveFrac cells = 1 := by
  unfold liveFrac
  rw [List.filter_eq_self.mpr (by simpa using h), div_self]
  simpa using hne

theorem cellSum_range {cells : List (List Nat)} {f : Nat → ℚ} (h : ∀ i, 0 ≤ f i ∧ f i ≤ 1) :
    0 ≤ cellSum cells f ∧ cellSum cells f ≤ 1 := by
  constructor
  · rw [← cellSum_zero cells]; exact cellSum_mono fun c _ i _ => (h i).1
  · refine le_trans (cellSum_mono fun c _ i _ => (h i).2) ?_
    rw [cellSum_one]; exact liveFrac_le_one _

theorem ind_range (b : Bool) : 0 ≤ ind b ∧ ind b ≤ 1 := by cases b <;> simp [ind]

/-- weights: the sum over cells is the weighted sum over rows -/
theorem cellSum_weights {cells : List (List Nat)} {N : Nat} (h : ∀ c ∈ cells, c.Sublist (List.range N)) (f : Nat → ℚ) :
    cellSum cells f = ((List.range N).map fun i =>
      (cells.map fun c => (c.count i : ℚ) * (1 / ((cells.length : ℚ) * c.length))).sum * f i).sum := by
  unfold cellSum
  generalize (cells.length : ℚ) = n
  induction cells with
  | nil => simp
  | cons c cells ih =>
    simp only [List.map_cons, List.sum_cons, add_mul]
    rw [sum_map_add, ← ih fun c' hc' => h c' (List.mem_cons_of_mem _ hc')]
    congr 1
    have hsub := h c (by simp)
    have hnd : c.Nodup := hsub.nodup List.nodup_range
    have hcount : ∀ i, (c.count i : ℚ) = if i ∈ c then 1 else 0 := by
      intro i
      split
      · rename_i hi; rw [List.count_eq_one_of_mem hnd hi]; simp
      · rename_i hi; rw [List.count_eq_zero_of_not_mem hi]; simp
    simp only [hcount]
    rw [← List.sum_toFinset _ hnd, ← List.sum_toFinset _ List.nodup_range]
    have hfil : c.toFinset = (List.range N).toFinset.filter (· ∈ c) := by
      ext i
      simp only [List.mem_toFinset, Finset.mem_filter]
      exact ⟨fun hi => ⟨hsub.subset hi, hi⟩, fun hi => hi.2⟩
    rw [hfil, Finset.sum_filter]
    apply Finset.sum_congr rfl
    intro i _
    split <;> simp

end Acv
