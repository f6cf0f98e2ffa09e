import Verif.Lemmas.QuantileRf

/-! # C78: quantiles of the projected forest -/

namespace Acv

/-- **C78.** The Cython `compute_quantile_rf` returns what the Python `compute_quantile_shaff` returns, for the same trees (and the
same memory around them). -/
theorem C78_cython_is_python (mems : List Mem) (S : List Nat) (x : Row) (data : Nat → Row) (y : Nat → ℚ) (minSize maxDepth N : Nat)
    (q : ℚ) : quantileRf mems S x data y minSize maxDepth N q = shaffQuantile mems S x data y minSize maxDepth N q := by
  unfold quantileRf shaffQuantile
  congr 1
  apply List.map_congr_left
  intro i hi
  rw [arrWeight_eq mems S x data minSize maxDepth (List.mem_range.1 hi)]

/-- **C78.** With `1 <= min_node_size <= N` a quantile is returned for every valid `q`; it lies between the outputs of two background
rows that share a cell with the observation in some tree, each cell having at least `min_node_size` rows, and it is non-decreasing
in `q`. -/
theorem C78_quantile (mems : List Mem) (hm : mems ≠ []) (S : List Nat) (x : Row) (data : Nat → Row) (y : Nat → ℚ) {minSize N : Nat}
    (maxDepth : Nat) (h1 : 1 ≤ minSize) (h2 : minSize ≤ N) {q : ℚ} (hq : 0 ≤ q ∧ q ≤ 100) :
    ∃ v, quantileRf mems S x data y minSize maxDepth N q = .ok v ∧
      (∃ mem ∈ mems, ∃ i < N, mem.arr S x data minSize maxDepth N i = 1 ∧ y i ≤ v) ∧
      (∃ mem ∈ mems, ∃ i < N, mem.arr S x data minSize maxDepth N i = 1 ∧ v ≤ y i) ∧
      (∀ mem ∈ mems, (minSize : ℚ) ≤ arrSum N (mem.arr S x data minSize maxDepth N)) ∧
      ∀ q' v', q ≤ q' → quantileRf mems S x data y minSize maxDepth N q' = .ok v' → v ≤ v' := by
  obtain ⟨v, a1, ⟨m1, a2, i1, a3, a4, a5⟩, ⟨m2, a6, i2, a7, a8, a9⟩, a10⟩ := C45_forest mems hm S x data y maxDepth h1 h2 hq
  refine ⟨v, by rw [C78_cython_is_python]; exact a1, ⟨m1, a2, i1, a4, ?_, a5⟩, ⟨m2, a6, i2, a8, ?_, a9⟩, ?_, ?_⟩
  · rw [(arr_eq m1 S x data minSize maxDepth N).2 i1 a4, if_pos a3]
  · rw [(arr_eq m2 S x data minSize maxDepth N).2 i2 a8, if_pos a7]
  · intro mem _
    rw [(arr_eq mem S x data minSize maxDepth N).sum]
    exact Nat.cast_le.2 (C23_python_min_size mem S x data minSize maxDepth N h2).1
  · intro q' v' hqq h
    rw [C78_cython_is_python] at h
    exact a10 q' v' hqq h

example : quantileRf [Mem.ofTree rootSplit leafJunk] [0] (fun _ => 0) diag (fun i => diag i 0) 1 1 4 50 = .ok (1/2) ∧
    quantileRf [Mem.ofTree rootSplit leafJunk] [0] (fun _ => 0) diag (fun i => diag i 0) 3 1 4 50 = .ok (3/2) := by
  decide +kernel

theorem shaffWeight_zero {cells : List (List Nat)} {i : Nat} : shaffWeight cells i = 0 ↔ ¬ ∃ c ∈ cells, i ∈ c := by
  constructor
  · intro h hc
    exact absurd h (ne_of_gt (shaffWeight_pos.2 hc))
  · intro h
    by_contra hc
    exact h (shaffWeight_pos.1 (lt_of_le_of_ne (shaffWeight_nonneg cells i) (Ne.symm hc)))

/-- Rows without weight have no influence, whatever value stands beside the weight. -/
theorem percentile_drop (w f g : Nat → ℚ) (hfg : ∀ i, w i ≠ 0 → f i = g i) (l : List Nat) (q : ℚ) :
    weightedPercentile (l.map fun i => (f i, w i)) q = weightedPercentile (l.map fun i => (g i, w i)) q := by
  have : ((l.map fun i => (f i, w i)).filter fun s => decide (s.2 ≠ 0)) = (l.map fun i => (g i, w i)).filter fun s => decide (s.2 ≠ 0) := by
    induction l with
    | nil => rfl
    | cons a l ih =>
      rw [List.map_cons, List.map_cons]
      by_cases h : w a = 0
      · rw [List.filter_cons_of_neg (by simpa using h), List.filter_cons_of_neg (by simpa using h), ih]
      · rw [List.filter_cons_of_pos (by simpa using h), List.filter_cons_of_pos (by simpa using h), ih, hfg a h]
  unfold weightedPercentile
  rw [this]

/-- **C78, differences.** `compute_quantile_diff_rf` is the weighted percentile of the differences `y(x) - y(z)` over the background
rows `z`, with the weights of the projected forest: the zeros left in the array of differences for the rows outside all cells play
no role. -/
theorem C78_diff (mems : List Mem) (S : List Nat) (x : Row) (yx : ℚ) (data : Nat → Row) (y : Nat → ℚ) (minSize maxDepth N : Nat)
    (q : ℚ) : quantileDiffRf mems S x yx data y minSize maxDepth N q =
      weightedPercentile ((List.range N).map fun i => (yx - y i, shaffWeight (cellsVec mems S x data minSize maxDepth N) i)) q := by
  unfold quantileDiffRf
  simp only
  rw [C45_sorter]
  apply percentile_drop
  intro i hi
  unfold localDiff
  rw [if_pos]
  by_contra hc
  exact hi (shaffWeight_zero.2 hc)

/-- **C78, differences (part).** For background outputs all different, the percentile `q` of the difference is `y(x)` minus the
percentile `100 - q` of the output, and one exists exactly when the other does. Missing: tied outputs (`C78_diff_ties_false`). -/
theorem C78_diff_reflect_partial (mems : List Mem) (S : List Nat) (x : Row) (yx : ℚ) (data : Nat → Row) (y : Nat → ℚ)
    (minSize maxDepth N : Nat) (q : ℚ) (hd : ((List.range N).map y).Nodup) :
    quantileDiffRf mems S x yx data y minSize maxDepth N q =
      (weightedPercentile ((List.range N).map fun i => (y i, shaffWeight (cellsVec mems S x data minSize maxDepth N) i)) (100 - q)).map
        fun v => yx - v := by
  rw [C78_diff]
  set w := shaffWeight (cellsVec mems S x data minSize maxDepth N) with hwdef
  set samples := (List.range N).map fun i => (y i, w i) with hs
  have hr : ((List.range N).map fun i => (yx - y i, w i)) = reflect yx samples := by
    unfold reflect; rw [hs, List.map_map]; rfl
  rw [hr]
  have hw : ∀ s ∈ samples, 0 ≤ s.2 := by
    intro s h
    obtain ⟨i, -, rfl⟩ := List.mem_map.1 h
    exact shaffWeight_nonneg _ _
  have hd' : (samples.map Prod.fst).Nodup := by
    rw [hs, List.map_map]; exact hd
  have hiff : (∃ v, weightedPercentile (reflect yx samples) q = .ok v) ↔ ∃ v, weightedPercentile samples (100 - q) = .ok v := by
    rw [C45_defined, C45_defined]
    constructor
    · rintro ⟨⟨h1, h2⟩, s, h3, h4⟩
      obtain ⟨r, hr, rfl⟩ := List.mem_map.1 h3
      exact ⟨⟨by linarith, by linarith⟩, r, hr, h4⟩
    · rintro ⟨⟨h1, h2⟩, s, h3, h4⟩
      exact ⟨⟨by linarith, by linarith⟩, _, List.mem_map.2 ⟨s, h3, rfl⟩, h4⟩
  cases h : weightedPercentile samples (100 - q) with
  | ok v =>
    obtain ⟨v', h'⟩ := hiff.2 ⟨v, h⟩
    rw [h', percentile_reflect yx hw hd' h' h]
    rfl
  | error e =>
    have hno : ¬ ∃ v, weightedPercentile (reflect yx samples) q = .ok v := fun hc => by
      obtain ⟨v, hv⟩ := hiff.1 hc
      rw [h] at hv; cases hv
    -- the same exception on both sides
    have hf : ((reflect yx samples).filter fun s => decide (s.2 ≠ 0)) = [] ↔ (samples.filter fun s => decide (s.2 ≠ 0)) = [] := by
      rw [List.filter_eq_nil_iff, List.filter_eq_nil_iff]
      constructor
      · intro h5 s hs; exact h5 (yx - s.1, s.2) (List.mem_map.2 ⟨s, hs, rfl⟩)
      · intro h5 s hs
        obtain ⟨r, hr, rfl⟩ := List.mem_map.1 hs
        exact h5 r hr
    have hr2 : (100 < q ∨ q < 0) ↔ (100 < 100 - q ∨ 100 - q < 0) := by
      constructor
      · rintro (h5 | h5)
        · right; linarith
        · left; linarith
      · rintro (h5 | h5)
        · right; linarith
        · left; linarith
    unfold weightedPercentile at h ⊢
    by_cases hb : 100 < q ∨ q < 0
    · rw [if_pos hb]
      rw [if_pos (hr2.1 hb)] at h
      cases h; rfl
    · rw [if_neg hb]
      rw [if_neg (fun hc => hb (hr2.2 hc))] at h
      simp only at h ⊢
      by_cases hn : (samples.filter fun s => decide (s.2 ≠ 0)) = []
      · rw [if_pos (hf.2 hn)]
        rw [if_pos hn] at h
        cases h; rfl
      · rw [if_neg hn] at h
        cases h

/-- Distinct outputs, two trees with overlapping cells of unequal weight: the 20th percentile of the difference. -/
example : ((List.range 10).map fun i => diag i 0).Nodup ∧
    quantileDiffRf [Mem.ofTree ladderTree leafJunk, Mem.ofTree rootSplit leafJunk] [0, 2] (fun _ => 4) 4 diag (fun i => diag i 0) 1 3 10
      20 = .ok (-23/10) := by
  decide +kernel

/-- **C78, differences.** With tied outputs the claim fails: rows 5 and 6 have the same output and unequal weights, the sort is stable,
and the 20th percentile of the difference is not `y(x)` minus the 80th percentile of the output. -/
theorem C78_diff_ties_false :
    ∃ (mems : List Mem) (S : List Nat) (x : Row) (yx : ℚ) (data : Nat → Row) (y : Nat → ℚ) (v v' : ℚ),
      quantileDiffRf mems S x yx data y 1 3 10 20 = .ok v' ∧
      weightedPercentile ((List.range 10).map fun i => (y i, shaffWeight (cellsVec mems S x data 1 3 10) i)) (100 - 20) = .ok v ∧
      v' ≠ yx - v :=
  ⟨[Mem.ofTree ladderTree leafJunk, Mem.ofTree rootSplit leafJunk], [0, 2], fun _ => 4, 4, diag, fun i => if i = 6 then 5 else i,
    28/5, -23/10, by decide +kernel⟩

/-- **C78.** Unlike the quantile itself, the quantile of the difference has no minimum-size guarantee of its own: it raises an error
exactly when `q` is invalid or no tree has a background row in the observation's cell. -/
theorem C78_diff_defined (mems : List Mem) (S : List Nat) (x : Row) (yx : ℚ) (data : Nat → Row) (y : Nat → ℚ)
    (minSize maxDepth N : Nat) (q : ℚ) :
    (∃ v, quantileDiffRf mems S x yx data y minSize maxDepth N q = .ok v) ↔
      (0 ≤ q ∧ q ≤ 100) ∧ ∃ c ∈ cellsVec mems S x data minSize maxDepth N, ∃ i ∈ c, i < N := by
  rw [C78_diff, C45_defined]
  refine and_congr Iff.rfl ⟨?_, ?_⟩
  · rintro ⟨s, hs, h⟩
    obtain ⟨i, hi, rfl⟩ := List.mem_map.1 hs
    by_contra hc
    refine h (shaffWeight_zero.2 ?_)
    rintro ⟨c, h1, h2⟩
    exact hc ⟨c, h1, i, h2, List.mem_range.1 hi⟩
  · rintro ⟨c, h1, i, h2, h3⟩
    exact ⟨_, List.mem_map.2 ⟨i, List.mem_range.2 h3, rfl⟩, ne_of_gt (shaffWeight_pos.2 ⟨c, h1, h2⟩)⟩

end Acv
