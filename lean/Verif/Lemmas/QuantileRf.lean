import Verif.Model.QuantileRf
import Verif.Props.Quantile
import Verif.Lemmas.SearchEnum
import Mathlib.Tactic.Ring
import Mathlib.Tactic.FieldSimp
import Mathlib.Tactic.Linarith

/-! # Arrays of 0/1 against lists of rows; reflection of percentiles -/

namespace Acv

/-- The array is the indicator of the list on `0 .. N-1`. -/
def ArrIs (N : Nat) (a : Nat → ℚ) (l : List Nat) : Prop :=
  l.Sublist (List.range N) ∧ ∀ i < N, a i = if i ∈ l then 1 else 0

theorem ArrIs.sum {N : Nat} {a : Nat → ℚ} {l : List Nat} (h : ArrIs N a l) : arrSum N a = l.length := by
  obtain ⟨h1, h2⟩ := h
  unfold arrSum
  rw [List.map_congr_left (g := fun i => if i ∈ l then (1 : ℚ) else 0) fun i hi => h2 i (List.mem_range.1 hi)]
  have e : l = (List.range N).filter fun i => decide (i ∈ l) := (filter_mem_sublist' h1 List.nodup_range).symm
  have : ∀ r : List Nat, (r.map fun i => if i ∈ l then (1 : ℚ) else 0).sum = (r.filter fun i => decide (i ∈ l)).length := by
    intro r
    induction r with
    | nil => simp
    | cons a r ih =>
      rw [List.map_cons, List.sum_cons, ih, List.filter_cons]
      by_cases ha : a ∈ l
      · simp [ha]; ring
      · simp [ha]
  rw [this, ← e]

theorem ArrIs.filter {N : Nat} {a : Nat → ℚ} {l : List Nat} (h : ArrIs N a l) (p : Nat → Bool) :
    ArrIs N (fun i => a i * ind (p i)) (l.filter p) := by
  refine ⟨List.filter_sublist.trans h.1, fun i hi => ?_⟩
  beta_reduce
  rw [h.2 i hi]
  unfold ind
  by_cases h1 : i ∈ l <;> by_cases h2 : p i <;> simp [List.mem_filter, h1, h2]

theorem visitArr_eq (mem : Mem) (S : List Nat) (x : Row) (data : Nat → Row) (n : Int) (child : List Int) {N : Nat} {a : Nat → ℚ}
    {l : List Nat} (h : ArrIs N a l) :
    (mem.visitArr S x data n child a).1 = (mem.visitPy S x data n child l).1 ∧
    ArrIs N (mem.visitArr S x data n child a).2 (mem.visitPy S x data n child l).2 := by
  unfold Mem.visitArr Mem.visitPy pushBack
  simp only
  split
  · split
    · exact ⟨rfl, h.filter _⟩
    · exact ⟨rfl, h.filter _⟩
  · exact ⟨rfl, h⟩

theorem scanArr_eq (mem : Mem) (S : List Nat) (x : Row) (data : Nat → Row) (minSize : Nat) {N : Nat} :
    ∀ (ns : List Int) (child : List Int) {a : Nat → ℚ} {l : List Nat}, ArrIs N a l →
      (mem.scanArr S x data minSize N ns child a).1 = (mem.scanPy S x data minSize ns child l).1 ∧
      ArrIs N (mem.scanArr S x data minSize N ns child a).2 (mem.scanPy S x data minSize ns child l).2
  | [], _, _, _, h => ⟨rfl, h⟩
  | n :: ns, child, a, l, h => by
    obtain ⟨h1, h2⟩ := visitArr_eq mem S x data n child h
    unfold Mem.scanArr Mem.scanPy
    simp only
    rw [h2.sum, h1]
    have e : ((((mem.visitPy S x data n child l).2.length : Nat) : ℚ) < (minSize : ℚ)) ↔
        (mem.visitPy S x data n child l).2.length < minSize := Nat.cast_lt
    by_cases hs : (mem.visitPy S x data n child l).2.length < minSize
    · rw [if_pos (e.2 hs), if_pos hs]
      exact ⟨rfl, h⟩
    · rw [if_neg (fun h => hs (e.1 h)), if_neg hs]
      exact scanArr_eq mem S x data minSize ns _ h2

theorem levelsArr_eq (mem : Mem) (S : List Nat) (x : Row) (data : Nat → Row) (minSize : Nat) {N : Nat} :
    ∀ (k : Nat) (nodes child : List Int) {a : Nat → ℚ} {l : List Nat}, ArrIs N a l →
      ArrIs N (mem.levelsArr S x data minSize N k nodes child a) (mem.levelsPy S x data minSize k nodes child l)
  | 0, _, _, _, _, h => h
  | k + 1, nodes, child, a, l, h => by
    obtain ⟨h1, h2⟩ := scanArr_eq mem S x data minSize nodes child h
    unfold Mem.levelsArr Mem.levelsPy
    simp only
    rw [h1]
    exact levelsArr_eq mem S x data minSize k _ _ h2

theorem arr_eq (mem : Mem) (S : List Nat) (x : Row) (data : Nat → Row) (minSize maxDepth N : Nat) :
    ArrIs N (mem.arr S x data minSize maxDepth N) (mem.cellPy S x data minSize maxDepth N) :=
  levelsArr_eq mem S x data minSize maxDepth [0] [] ⟨List.Sublist.refl _, fun i hi => by rw [if_pos (List.mem_range.2 hi)]⟩

theorem arrWeight_eq (mems : List Mem) (S : List Nat) (x : Row) (data : Nat → Row) (minSize maxDepth : Nat) {N i : Nat} (hi : i < N) :
    arrWeight N (mems.map fun mem => mem.arr S x data minSize maxDepth N) i =
      shaffWeight (mems.map fun mem => mem.cellPy S x data minSize maxDepth N) i := by
  unfold arrWeight shaffWeight
  rw [List.length_map, List.length_map, List.map_map, List.map_map]
  congr 2
  apply List.map_congr_left
  intro mem _
  have h := arr_eq mem S x data minSize maxDepth N
  simp only [Function.comp]
  rw [h.sum, h.2 i hi]
  split <;> simp

/-! ## Reflection -/

theorem sum_ite_filter (p : ℚ × ℚ → Bool) : ∀ l : List (ℚ × ℚ),
    ((l.filter p).map Prod.snd).sum = (l.map fun r => if p r then r.2 else 0).sum
  | [] => rfl
  | a :: l => by
    rw [List.filter_cons, List.map_cons, List.sum_cons, ← sum_ite_filter p l]
    by_cases h : p a <;> simp [h]

theorem sum_key_eq : ∀ {l : List (ℚ × ℚ)}, (l.map Prod.fst).Nodup → ∀ s ∈ l, (l.map fun r => if r.1 = s.1 then r.2 else 0).sum = s.2
  | [], _, s, hs => by simp at hs
  | a :: l, hd, s, hs => by
    rw [List.map_cons, List.nodup_cons] at hd
    rw [List.map_cons, List.sum_cons]
    rcases List.mem_cons.1 hs with rfl | hs
    · have : (l.map fun r => if r.1 = s.1 then r.2 else 0).sum = 0 := by
        apply List.sum_eq_zero
        intro w hw
        obtain ⟨r, hr, rfl⟩ := List.mem_map.1 hw
        rw [if_neg]
        intro e
        exact hd.1 (List.mem_map.2 ⟨r, hr, e⟩)
      rw [this]; simp
    · have hne : a.1 ≠ s.1 := fun e => hd.1 (e ▸ List.mem_map.2 ⟨s, hs, rfl⟩)
      rw [if_neg hne, sum_key_eq hd.2 s hs, zero_add]

/-- The samples with outputs `c - a`. -/
def reflect (c : ℚ) (samples : List (ℚ × ℚ)) : List (ℚ × ℚ) := samples.map fun s => (c - s.1, s.2)

theorem totalWeight_reflect (c : ℚ) (samples : List (ℚ × ℚ)) : totalWeight (reflect c samples) = totalWeight samples := by
  unfold totalWeight reflect
  rw [List.map_map]
  rfl

theorem weightBelow_reflect (c : ℚ) {samples : List (ℚ × ℚ)} (hd : (samples.map Prod.fst).Nodup) {s : ℚ × ℚ} (hs : s ∈ samples) :
    weightBelow (reflect c samples) (c - s.1) = totalWeight samples - weightBelow samples s.1 - s.2 := by
  have key : ∀ l : List (ℚ × ℚ), ((reflect c l).map fun r => if r.1 < c - s.1 then r.2 else 0).sum +
      (l.map fun r => if r.1 < s.1 then r.2 else 0).sum + (l.map fun r => if r.1 = s.1 then r.2 else 0).sum = (l.map Prod.snd).sum := by
    intro l
    induction l with
    | nil => simp [reflect]
    | cons a l ih =>
      simp only [reflect, List.map_cons, List.sum_cons] at ih ⊢
      rw [← ih]
      rcases lt_trichotomy a.1 s.1 with h | h | h
      · have h1 : ¬ (c - a.1 < c - s.1) := by linarith
        simp only [h1, h, ne_of_lt h, if_true, if_false]; ring
      · have h1 : ¬ (c - a.1 < c - s.1) := by linarith
        have h2 : ¬ a.1 < s.1 := by linarith
        rw [if_neg h1, if_neg h2, if_pos h]; ring
      · have h1 : c - a.1 < c - s.1 := by linarith
        have h2 : ¬ a.1 < s.1 := by linarith
        simp only [h1, h2, ne_of_gt h, if_true, if_false]; ring
  have := key samples
  rw [sum_key_eq hd s hs] at this
  unfold weightBelow totalWeight
  rw [sum_ite_filter, sum_ite_filter]
  simp only [decide_eq_true_eq]
  linarith

theorem total_pos' {samples : List (ℚ × ℚ)} (hw : ∀ s ∈ samples, 0 ≤ s.2) {s : ℚ × ℚ} (hs : s ∈ samples) (h0 : 0 < s.2) :
    0 < totalWeight samples := by
  unfold totalWeight
  refine lt_of_lt_of_le h0 (List.single_le_sum ?_ _ (List.mem_map.2 ⟨s, hs, rfl⟩))
  intro w hw'
  obtain ⟨r, hr, rfl⟩ := List.mem_map.1 hw'
  exact hw r hr

theorem percentOf_reflect (c : ℚ) {samples : List (ℚ × ℚ)} (hd : (samples.map Prod.fst).Nodup) {s : ℚ × ℚ} (hs : s ∈ samples)
    (ht : 0 < totalWeight samples) : percentOf (reflect c samples) (c - s.1, s.2) = 100 - percentOf samples s := by
  unfold percentOf
  rw [totalWeight_reflect]
  simp only
  rw [weightBelow_reflect c hd hs]
  have := ne_of_gt ht
  field_simp
  ring

theorem percentOf_lt {samples : List (ℚ × ℚ)} (hw : ∀ s ∈ samples, 0 ≤ s.2) {s e : ℚ × ℚ} (hs : s ∈ samples) (h1 : 0 < s.2)
    (h2 : 0 < e.2) (hse : s.1 < e.1) : percentOf samples s < percentOf samples e := by
  have ht := total_pos' hw hs h1
  have key : weightBelow samples s.1 + s.2 ≤ weightBelow samples e.1 := by
    have h3 : s.2 ≤ (samples.map fun r => if r.1 = s.1 then r.2 else 0).sum := by
      refine List.single_le_sum ?_ _ (List.mem_map.2 ⟨s, hs, by simp⟩)
      intro w hw'
      obtain ⟨r, hr, rfl⟩ := List.mem_map.1 hw'
      split
      · exact hw r hr
      · exact le_rfl
    have h4 : ∀ l : List (ℚ × ℚ), (∀ r ∈ l, 0 ≤ r.2) → (l.map fun r => if r.1 < s.1 then r.2 else 0).sum +
        (l.map fun r => if r.1 = s.1 then r.2 else 0).sum ≤ (l.map fun r => if r.1 < e.1 then r.2 else 0).sum := by
      intro l
      induction l with
      | nil => intro _; simp
      | cons a l ih =>
        intro hl
        have ih := ih fun r hr => hl r (by simp [hr])
        have ha := hl a (by simp)
        simp only [List.map_cons, List.sum_cons]
        rcases lt_trichotomy a.1 s.1 with h | h | h
        · rw [if_pos h, if_neg (ne_of_lt h), if_pos (lt_trans h hse)]; linarith
        · rw [if_neg (not_lt.2 (le_of_eq h.symm)), if_pos h, if_pos (h ▸ hse)]; linarith
        · rw [if_neg (not_lt.2 (le_of_lt h)), if_neg (ne_of_gt h)]
          split <;> linarith
    have := h4 samples hw
    unfold weightBelow
    rw [sum_ite_filter, sum_ite_filter]
    simp only [decide_eq_true_eq]
    linarith
  unfold percentOf
  apply div_lt_div_of_pos_right _ ht
  linarith

/-- Where a percentage falls among the samples of positive weight. -/
theorem bracket {samples : List (ℚ × ℚ)} (hne : ∃ s ∈ samples, 0 < s.2) (p : ℚ) :
    (∃ s ∈ samples, 0 < s.2 ∧ (∀ r ∈ samples, 0 < r.2 → s.1 ≤ r.1) ∧ p ≤ percentOf samples s) ∨
    (∃ s ∈ samples, 0 < s.2 ∧ (∀ r ∈ samples, 0 < r.2 → r.1 ≤ s.1) ∧ percentOf samples s ≤ p) ∨
    ∃ s ∈ samples, ∃ e ∈ samples, 0 < s.2 ∧ 0 < e.2 ∧ s.1 < e.1 ∧ (∀ r ∈ samples, 0 < r.2 → ¬ (s.1 < r.1 ∧ r.1 < e.1)) ∧
      percentOf samples s ≤ p ∧ p ≤ percentOf samples e := by
  classical
  set P := samples.toFinset.filter fun s => 0 < s.2 with hP
  have hmem : ∀ s, s ∈ P ↔ s ∈ samples ∧ 0 < s.2 := by intro s; simp [hP]
  obtain ⟨s0, hs0, h0⟩ := hne
  by_cases hex : ∃ s ∈ P, percentOf samples s ≤ p
  · obtain ⟨s1, h1, h2⟩ := hex
    obtain ⟨s, hs, hmax⟩ := Finset.exists_max_image (P.filter fun s => percentOf samples s ≤ p) (fun s => s.1)
      ⟨s1, Finset.mem_filter.2 ⟨h1, h2⟩⟩
    obtain ⟨hsP, hsp⟩ := Finset.mem_filter.1 hs
    by_cases hgt : ∃ e ∈ P, s.1 < e.1
    · obtain ⟨e1, h3, h4⟩ := hgt
      obtain ⟨e, he, hmin⟩ := Finset.exists_min_image (P.filter fun e => s.1 < e.1) (fun e => e.1) ⟨e1, Finset.mem_filter.2 ⟨h3, h4⟩⟩
      obtain ⟨heP, hse⟩ := Finset.mem_filter.1 he
      refine Or.inr (Or.inr ⟨s, ((hmem s).1 hsP).1, e, ((hmem e).1 heP).1, ((hmem s).1 hsP).2, ((hmem e).1 heP).2, hse, ?_, hsp, ?_⟩)
      · rintro r hr h5 ⟨h6, h7⟩
        exact absurd (hmin r (Finset.mem_filter.2 ⟨(hmem r).2 ⟨hr, h5⟩, h6⟩)) (not_le.2 h7)
      · by_contra hc
        exact absurd (hmax e (Finset.mem_filter.2 ⟨heP, le_of_lt (not_le.1 hc)⟩)) (not_le.2 hse)
    · push Not at hgt
      exact Or.inr (Or.inl ⟨s, ((hmem s).1 hsP).1, ((hmem s).1 hsP).2, fun r hr h5 => hgt r ((hmem r).2 ⟨hr, h5⟩), hsp⟩)
  · push Not at hex
    obtain ⟨s, hs, hmin⟩ := Finset.exists_min_image P (fun s => s.1) ⟨s0, (hmem s0).2 ⟨hs0, h0⟩⟩
    exact Or.inl ⟨s, ((hmem s).1 hs).1, ((hmem s).1 hs).2, fun r hr h5 => hmin r ((hmem r).2 ⟨hr, h5⟩), le_of_lt (hex s hs)⟩

/-- For distinct outputs, the percentile of `c - a` at `q` is `c` minus the percentile of `a` at `100 - q`. -/
theorem percentile_reflect (c : ℚ) {samples : List (ℚ × ℚ)} (hw : ∀ s ∈ samples, 0 ≤ s.2) (hd : (samples.map Prod.fst).Nodup)
    {q v v' : ℚ} (h' : weightedPercentile (reflect c samples) q = .ok v') (h : weightedPercentile samples (100 - q) = .ok v) :
    v' = c - v := by
  have hw' : ∀ s ∈ reflect c samples, 0 ≤ s.2 := by
    intro s hs
    obtain ⟨r, hr, rfl⟩ := List.mem_map.1 hs
    exact hw r hr
  have hd' : ((reflect c samples).map Prod.fst).Nodup := by
    unfold reflect
    rw [List.map_map]
    have : (samples.map (Prod.fst ∘ fun s : ℚ × ℚ => (c - s.1, s.2))) = (samples.map Prod.fst).map fun a => c - a := by
      rw [List.map_map]; rfl
    rw [this]
    exact hd.map fun a b hab => by simpa using hab
  have hin : ∀ s ∈ samples, (c - s.1, s.2) ∈ reflect c samples := fun s hs => List.mem_map.2 ⟨s, hs, rfl⟩
  have hne : ∃ s ∈ samples, 0 < s.2 := by
    obtain ⟨_, s, hs, h2⟩ := (C45_defined samples (100 - q)).1 ⟨v, h⟩
    exact ⟨s, hs, lt_of_le_of_ne (hw s hs) (Ne.symm h2)⟩
  obtain ⟨-, a2, a3, a4⟩ := C45_value_partial hw hd h
  obtain ⟨-, b2, b3, b4⟩ := C45_value_partial hw' hd' h'
  have hpr : ∀ s ∈ samples, 0 < s.2 → percentOf (reflect c samples) (c - s.1, s.2) = 100 - percentOf samples s :=
    fun s hs h0 => percentOf_reflect c hd hs (total_pos' hw hs h0)
  rcases bracket hne (100 - q) with ⟨s, hs, h0, hmin, hp⟩ | ⟨s, hs, h0, hmax, hp⟩ | ⟨s, hs, e, he, h0, h1, hse, hno, hp1, hp2⟩
  · rw [a3 s hs h0 hmin hp]
    refine b4 _ (hin s hs) h0 ?_ ?_
    · intro r hr hr0
      obtain ⟨r, hr', rfl⟩ := List.mem_map.1 hr
      have := hmin r hr' hr0
      simp only; linarith
    · rw [hpr s hs h0]; linarith
  · rw [a4 s hs h0 hmax hp]
    refine b3 _ (hin s hs) h0 ?_ ?_
    · intro r hr hr0
      obtain ⟨r, hr', rfl⟩ := List.mem_map.1 hr
      have := hmax r hr' hr0
      simp only; linarith
    · rw [hpr s hs h0]; linarith
  · have hlt := percentOf_lt hw hs h0 h1 hse
    rw [a2 s hs e he h0 h1 hse hno hp1 hp2]
    have := b2 _ (hin e he) _ (hin s hs) h1 h0 (by simp only; linarith) (by
      intro r hr hr0
      obtain ⟨r, hr', rfl⟩ := List.mem_map.1 hr
      rintro ⟨h3, h4⟩
      simp only at h3 h4
      exact hno r hr' hr0 ⟨by linarith, by linarith⟩) (by rw [hpr e he h1]; linarith) (by rw [hpr s hs h0]; linarith)
    rw [this, hpr s hs h0, hpr e he h1]
    have hne : percentOf samples e - percentOf samples s ≠ 0 := by linarith
    have hne' : (100 - percentOf samples s) - (100 - percentOf samples e) ≠ 0 := by
      intro hc; apply hne; linarith
    have e1 : (100 - percentOf samples s) - (100 - percentOf samples e) = percentOf samples e - percentOf samples s := by ring
    rw [e1]
    field_simp
    ring

end Acv
