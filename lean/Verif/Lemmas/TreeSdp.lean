import Verif.Lemmas.LeafShap
import Verif.Model.TreeSdp
import Verif.Spec.TreeSdp

namespace Acv

/-- a finite lower bound of a leaf rectangle is the threshold of a test on that column -/
theorem foldl_narrow_lo {t : TreeArr} : ∀ (c : List (Nat × Bool)) (part : Rect) (s : Nat) (l : ℚ),
    ((c.foldl t.narrow part) s).lo = some l → (part s).lo = some l ∨
      ∃ ps ∈ c, (t.feature ps.1).toNat = s ∧ t.threshold ps.1 = l
  | [], part, s, l, h => Or.inl h
  | ps :: c, part, s, l, h => by
    rcases foldl_narrow_lo c _ s l h with h1 | ⟨qs, hq, h2⟩
    · unfold TreeArr.narrow Rect.set at h1
      by_cases hs : s = (t.feature ps.1).toNat
      · rw [if_pos hs] at h1
        cases hps : ps.2
        · rw [hps] at h1; simp [Ival.below] at h1; left; rw [hs]; exact h1
        · rw [hps] at h1
          simp only [if_true, Ival.above] at h1
          split at h1
          · right; exact ⟨ps, by simp, hs.symm, Option.some.inj h1⟩
          · rename_i l' hl'
            have h1 := Option.some.inj h1
            rcases max_choice l' (t.threshold ps.1) with h3 | h3
            · left; rw [hs, hl', ← h1, h3]
            · right; exact ⟨ps, by simp, hs.symm, by rw [← h1, h3]⟩
      · rw [if_neg hs] at h1; exact Or.inl h1
    · exact Or.inr ⟨qs, List.mem_cons_of_mem _ hq, h2⟩

theorem offSplits_lo {t : TreeArr} {d} (h : WellFormed t d) {z : Row} (hz : OffSplits t z) {ℓ : Nat}
    (hℓ : ℓ ∈ t.leafIdx) (s : Nat) : (t.leafRect ℓ s).lo ≠ some (z s) := by
  intro he
  obtain ⟨b, hb⟩ := h
  have hm := (leafIdx_iff hb _).mp hℓ
  obtain ⟨c, hc, hl, hfd⟩ := leaf_chain hb hm
  unfold TreeArr.leafRect at he
  rw [getPartition_chain hb hc _ _ _ (by omega)] at he
  rcases foldl_narrow_lo c _ s _ he with h1 | ⟨ps, hps, h1, h2⟩
  · simp [Ival.all] at h1
  · obtain ⟨k, hk, ha⟩ := hc.above ps hps
    obtain ⟨h3, h4, h5⟩ := above_internal ⟨b, hb⟩ hk ha
    exact hz _ h3 h4 (by rw [h1, h2])

theorem memCC_eq {i : Ival} {v : ℚ} (h : i.lo ≠ some v) : i.memCC v = i.memOC v := by
  rcases i with ⟨_ | l, _ | hh⟩ <;> simp only [Ival.memCC, Ival.memOC] <;> simp only [ne_eq, Option.some.injEq] at h
  · have : (l ≤ v) ↔ l < v := ⟨fun hl => lt_of_le_of_ne hl h, le_of_lt⟩
    simp [this]
  · have : (l ≤ v) ↔ l < v := ⟨fun hl => lt_of_le_of_ne hl h, le_of_lt⟩
    simp [this]

theorem satCC_eq {r : Rect} {S : List Nat} {z : Row} (h : ∀ s, (r s).lo ≠ some (z s)) : satCC r S z = sat r S z := by
  unfold satCC sat
  congr 1
  funext s
  exact memCC_eq (h s)

theorem cntCC_eq {r : Rect} {S : List Nat} {data : List Row} (h : ∀ z ∈ data, ∀ s, (r s).lo ≠ some (z s)) :
    cntCC data r S = cnt data r S := by
  unfold cntCC cnt
  congr 1
  exact List.filter_congr fun z hz => satCC_eq (h z hz)

theorem guardDiv_eq (a b : ℚ) : guardDiv a b = a / b := by
  unfold guardDiv; split
  · rfl
  · rename_i h; rw [not_not.mp h, div_zero]

theorem sumLeaves_congr {ts : List TreeArr} {k : Nat} {f g : Rect → ℚ → ℚ}
    (h : ∀ t ∈ ts, ∀ ℓ ∈ t.leafIdx, f (t.leafRect ℓ) (t.value ℓ k) = g (t.leafRect ℓ) (t.value ℓ k)) :
    sumLeaves ts k f = sumLeaves ts k g := by
  unfold sumLeaves
  congr 1
  apply List.map_congr_left
  intro t ht
  congr 1
  apply List.map_congr_left
  intro ℓ hℓ
  exact h t ht ℓ hℓ

theorem sat_single {r : Rect} {S : List Nat} {z : Row} :
    sat r S z = true ↔ AgreesOn r (S.map ([·])).toFinset z := by
  rw [← sat_flatten]
  have : (S.map ([·])).flatten = S := by induction S <;> simp_all
  rw [this]

open Classical in
theorem exp_term_eq {m : Nat} {data : List Row} (r : Rect) (S : List Nat) (x : Row) (v : ℚ) :
    (if sat r S x then guardDiv (cnt data r (List.range m) * v) (cnt data r S) else 0)
      = v * leafShare m data r x (S.map ([·])).toFinset := by
  have hS : (S.map ([·])).flatten = S := by induction S <;> simp_all
  have hc := cnt_flatten data r (S.map ([·]))
  rw [hS] at hc
  have hx : sat r S x = decide (AgreesOn r (S.map ([·])).toFinset x) := by
    rw [Bool.eq_iff_iff, sat_single]; simp
  rw [hx, guardDiv_eq, hc, cnt_range]
  unfold leafShare
  by_cases ha : AgreesOn r (S.map ([·])).toFinset x
  · simp only [ha, decide_true, if_true]; ring
  · simp [ha]

/-- off the thresholds the Cython function is the leaf game -/
theorem expCy_eq {ts : List TreeArr} {m : Nat} (hts : ∀ t ∈ ts, WellFormed t m) {data : List Row} (S : List Nat)
    {x : Row} (k : Nat) (hx : ∀ t ∈ ts, OffSplits t x) (hd : ∀ t ∈ ts, ∀ z ∈ data, OffSplits t z) :
    expCy ts m data S x k = leafGame ts m data x k (S.map ([·])).toFinset := by
  have : leafGame ts m data x k (S.map ([·])).toFinset
      = sumLeaves ts k fun r v => v * leafShare m data r x (S.map ([·])).toFinset := rfl
  rw [this]
  apply sumLeaves_congr
  intro t ht ℓ hℓ
  rw [← exp_term_eq, satCC_eq (offSplits_lo (hts t ht) (hx t ht) hℓ),
    cntCC_eq fun z hz => offSplits_lo (hts t ht) (hd t ht z hz) hℓ]

/-- so is the Python function -/
theorem expPy_eq {ts : List TreeArr} {m : Nat} (hts : ∀ t ∈ ts, WellFormed t m) {data : List Row} {S : List Nat}
    (hS : S ≠ []) {x : Row} (k : Nat) (hx : ∀ t ∈ ts, OffSplits t x) (hd : ∀ t ∈ ts, ∀ z ∈ data, OffSplits t z) :
    expPy ts m data S x k = .ok (leafGame ts m data x k (S.map ([·])).toFinset) := by
  unfold expPy
  rw [if_neg hS, ← expCy_eq hts S k hx hd]
  congr 1
  apply sumLeaves_congr
  intro t ht ℓ hℓ
  rw [cntCC_eq (S := S) fun z hz => offSplits_lo (hts t ht) (hd t ht z hz) hℓ]

/-- weighted count over the leaves of a tree = sum over rows of the value of their leaf -/
theorem sum_leaf_counts {t : TreeArr} {m : Nat} (h : WellFormed t m) (rows : List Row) (f : Nat → ℚ) :
    (t.leafIdx.map fun ℓ => (cnt rows (t.leafRect ℓ) (List.range m) : ℚ) * f ℓ).sum
      = (rows.map fun z => f (leafAt t z)).sum := by
  classical
  induction rows with
  | nil => simp [cnt]
  | cons z rows ih =>
    rw [List.map_cons, List.sum_cons, ← ih, ← sum_leaf_indicator h z f, ← sum_map_add]
    congr 1
    apply List.map_congr_left
    intro ℓ _
    unfold cnt
    rw [List.filter_cons]
    by_cases hz : sat (t.leafRect ℓ) (List.range m) z = true
    · have := sat_range.mp hz
      simp only [hz, if_true, this, List.length_cons]; push_cast; ring
    · have := mt sat_range.mpr hz
      simp only [hz, this, if_false]; simp

theorem sumLeaves_counts {ts : List TreeArr} {m : Nat} (hts : ∀ t ∈ ts, WellFormed t m) (k : Nat) (rows : List Row) :
    sumLeaves ts k (fun r v => (cnt rows r (List.range m) : ℚ) * v)
      = (rows.map fun z => (ts.map fun t => t.value (leafAt t z) k).sum).sum := by
  have hswap : (rows.map fun z => (ts.map fun t => t.value (leafAt t z) k).sum).sum
      = (ts.map fun t => (rows.map fun z => t.value (leafAt t z) k).sum).sum := by
    induction rows with
    | nil => simp
    | cons z data ih => simp only [List.map_cons, List.sum_cons, ih, sum_map_add]
  rw [hswap]
  unfold sumLeaves
  congr 1
  apply List.map_congr_left
  intro t ht
  exact sum_leaf_counts (hts t ht) rows fun ℓ => t.value ℓ k

theorem sumLeaves_div (ts : List TreeArr) (k : Nat) (f : Rect → ℚ → ℚ) (c : ℚ) :
    sumLeaves ts k (fun r v => f r v / c) = sumLeaves ts k f / c := by
  unfold sumLeaves
  simp only [div_eq_mul_inv]
  rw [← List.sum_map_mul_right]
  congr 1
  apply List.map_congr_left
  intro t _
  rw [← List.sum_map_mul_right]

/-- rows that agree with `x` on `S` and lie in a leaf put `x` in that leaf on `S`, so the test on `x` is redundant -/
theorem cat_mean {ts : List TreeArr} {m : Nat} (hts : ∀ t ∈ ts, WellFormed t m) (k : Nat) (rows : List Row)
    {S : List Nat} (hS : ∀ s ∈ S, s < m) {x : Row} (hr : ∀ z ∈ rows, ∀ s ∈ S, z s = x s) :
    sumLeaves ts k (fun r v => if sat r S x then guardDiv (cnt rows r (List.range m) * v) rows.length else 0)
      = (rows.map fun z => (ts.map fun t => t.value (leafAt t z) k).sum).sum / rows.length := by
  rw [← sumLeaves_counts hts, ← sumLeaves_div]
  apply sumLeaves_congr
  intro t _ ℓ _
  rw [guardDiv_eq]
  by_cases hx : sat (t.leafRect ℓ) S x = true
  · rw [if_pos hx]
  · rw [if_neg hx]
    have : cnt rows (t.leafRect ℓ) (List.range m) = 0 := by
      unfold cnt
      rw [List.length_eq_zero_iff, List.filter_eq_nil_iff]
      intro z hz hsat
      apply hx
      rw [sat_iff] at hsat ⊢
      intro s hs
      rw [← hr z hz s hs]
      exact hsat s (List.mem_range.mpr (hS s hs))
    rw [this]; simp

theorem eqOn_iff {S : List Nat} {x z : Row} : eqOn S x z = true ↔ ∀ s ∈ S, z s = x s := by
  simp [eqOn]

theorem matching_eq (S : List Nat) (x : Row) (data : List Row) : matching S x data = data.filter (eqOn S x) := by
  unfold matching
  apply List.filter_congr
  intro z _
  rw [Bool.eq_iff_iff, eqOn_iff]; simp

theorem clamp01_range (s : ℚ) : 0 ≤ clamp01 s ∧ clamp01 s ≤ 1 := by
  unfold clamp01
  rcases lt_or_ge s 0 with h | h
  · have h1 : ¬ 0 ≤ s := not_le.mpr h
    have h2 : ¬ 1 < s := by linarith
    simp [h1, h2]
  · rcases le_or_gt s 1 with h' | h'
    · have : ¬ 1 < s := not_lt.mpr h'
      simp [h, h', this]
    · have : ¬ s ≤ 1 := not_le.mpr h'
      simp [h, h', this]

theorem clamp01_id {s : ℚ} (h0 : 0 ≤ s) (h1 : s ≤ 1) : clamp01 s = s := by
  unfold clamp01
  simp [h0, h1, not_lt.mpr h1]

/-- mixture: with `a` the mean over all rows, `u`, `d` the means over a part and the rest, `(a-d)/(u-d)` is the share of
the part -/
theorem mixture {rows up down : List Row} {P : Row → ℚ} (hlen : rows.length = up.length + down.length)
    (hsum : (rows.map P).sum = (up.map P).sum + (down.map P).sum) (hne : rows ≠ [])
    (hd : meanOver up P ≠ meanOver down P) :
    (meanOver rows P - meanOver down P) / (meanOver up P - meanOver down P) = up.length / rows.length := by
  have hr : (0 : ℚ) < rows.length := by exact_mod_cast List.length_pos_of_ne_nil hne
  have hsub : meanOver up P - meanOver down P ≠ 0 := sub_ne_zero.mpr hd
  have hu : (up.map P).sum = up.length * meanOver up P := by
    unfold meanOver
    by_cases h : up = []
    · simp [h]
    · have : (0 : ℚ) < up.length := by exact_mod_cast List.length_pos_of_ne_nil h
      field_simp
  have hdd : (down.map P).sum = down.length * meanOver down P := by
    unfold meanOver
    by_cases h : down = []
    · simp [h]
    · have : (0 : ℚ) < down.length := by exact_mod_cast List.length_pos_of_ne_nil h
      field_simp
  have hl : (rows.length : ℚ) = up.length + down.length := by exact_mod_cast hlen
  rw [div_eq_div_iff hsub (ne_of_gt hr)]
  have ha : meanOver rows P * rows.length = up.length * meanOver up P + down.length * meanOver down P := by
    rw [← hu, ← hdd, ← hsum]; unfold meanOver; field_simp
  rw [sub_mul, ha, hl]; ring

theorem filter_split {p : Row → Bool} (rows : List Row) (P : Row → ℚ) :
    rows.length = (rows.filter p).length + (rows.filter fun z => !p z).length ∧
    (rows.map P).sum = ((rows.filter p).map P).sum + ((rows.filter fun z => !p z).map P).sum := by
  induction rows with
  | nil => simp
  | cons z rows ih =>
    obtain ⟨h1, h2⟩ := ih
    by_cases hz : p z = true
    · simp only [List.filter_cons, hz, if_true, List.length_cons, List.map_cons, List.sum_cons, Bool.not_true, h2]
      refine ⟨by simp; omega, by simp; ring⟩
    · simp only [List.filter_cons, hz, List.length_cons, List.map_cons, List.sum_cons, h2]
      refine ⟨by simp; omega, by simp; ring⟩

end Acv
