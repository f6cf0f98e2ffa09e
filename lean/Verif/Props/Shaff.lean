import Verif.Model.Shaff
import Verif.Lemmas.QuantileRf
import Verif.Props.Projected
import Mathlib.Tactic.Ring
import Mathlib.Tactic.FieldSimp
import Mathlib.Tactic.Linarith

/-! # C81: the projected forest, Python versions -/

namespace Acv

theorem cellPy_sublist (mem : Mem) (S : List Nat) (x : Row) (data : Nat → Row) (minSize maxDepth N : Nat) :
    (mem.cellPy S x data minSize maxDepth N).Sublist (List.range N) := (arr_eq mem S x data minSize maxDepth N).1

/-- The cells of the Python versions, one per tree. -/
def cellsPy (mems : List Mem) (S : List Nat) (x : Row) (data : Nat → Row) (minSize maxDepth N : Nat) : List (List Nat) :=
  mems.map fun mem => mem.cellPy S x data minSize maxDepth N

theorem cellsPy_sublist {mems : List Mem} {S : List Nat} {x : Row} {data : Nat → Row} {minSize maxDepth N : Nat} :
    ∀ c ∈ cellsPy mems S x data minSize maxDepth N, c.Sublist (List.range N) := by
  intro c hc
  obtain ⟨mem, -, rfl⟩ := List.mem_map.1 hc
  exact cellPy_sublist mem S x data minSize maxDepth N

theorem weight_sum {cells : List (List Nat)} {N : Nat} (h : ∀ c ∈ cells, c.Sublist (List.range N)) (f : Nat → ℚ) :
    ((List.range N).map fun i => shaffWeight cells i * f i).sum = cellSum cells f := by
  rw [cellSum_weights h]
  congr 1
  apply List.map_congr_left
  intro i _
  congr 1
  unfold shaffWeight
  rw [div_eq_mul_inv, ← List.sum_map_mul_right]
  congr 1
  apply List.map_congr_left
  intro c hc
  have hnd : c.Nodup := (h c hc).nodup List.nodup_range
  by_cases hi : i ∈ c
  · rw [if_pos hi, List.count_eq_one_of_mem hnd hi]
    simp only [one_div, mul_inv, Nat.cast_one, one_mul]
    ring
  · rw [if_neg hi, List.count_eq_zero_of_not_mem hi]
    simp

theorem shaffSdpClf_cells (mems : List Mem) (S : List Nat) (x : Row) (yx : ℚ) (data : Nat → Row) (y : Nat → ℚ) (minSize maxDepth N : Nat) :
    shaffSdpClf mems S x yx data y minSize maxDepth N =
      cellSum (cellsPy mems S x data minSize maxDepth N) fun i => if y i = yx then 1 else 0 := by
  rw [← weight_sum cellsPy_sublist]
  unfold shaffSdpClf cellsPy shaffWeight ind
  simp only [decide_eq_true_eq]

theorem shaffSdp_cells (mems : List Mem) (S : List Nat) (x : Row) (yx : ℚ) (data : Nat → Row) (y : Nat → ℚ) (minSize maxDepth N : Nat) (t : ℚ) :
    shaffSdp mems S x yx data y minSize maxDepth N t =
      cellSum (cellsPy mems S x data minSize maxDepth N) fun i => if (y i - yx) ^ 2 ≤ t then 1 else 0 := by
  rw [← weight_sum cellsPy_sublist]
  unfold shaffSdp cellsPy ind
  simp only [decide_eq_true_eq]

/-- **C81.** The SDP of the Python versions is the mean over the trees of the frequency, among the background rows of the tree's cell,
of the outputs equal to that of `x` (`compute_sdp_clf_shaff`) or at squared distance at most `t` from it (`compute_sdp_shaff`). -/
theorem C81_is_mean_frequency (mems : List Mem) (S : List Nat) (x : Row) (yx : ℚ) (data : Nat → Row) (y : Nat → ℚ)
    (minSize maxDepth N : Nat) (t : ℚ) :
    let mean := fun (P : Nat → Bool) =>
      (mems.map fun mem => ((((mem.cellPy S x data minSize maxDepth N).filter P).length : ℚ) /
        (mem.cellPy S x data minSize maxDepth N).length)).sum / mems.length
    shaffSdpClf mems S x yx data y minSize maxDepth N = mean (fun i => decide (y i = yx)) ∧
    shaffSdp mems S x yx data y minSize maxDepth N t = mean (fun i => decide ((y i - yx) ^ 2 ≤ t)) := by
  intro mean
  rw [shaffSdpClf_cells, shaffSdp_cells, cellSum_freq, cellSum_freq]
  unfold cellsPy
  rw [List.map_map, List.map_map, List.length_map]
  exact ⟨rfl, rfl⟩

example : shaffSdpClf [Mem.py ladderTree, Mem.py rootSplit] [0, 2] (fun _ => 4) 1 diag (fun i => if i < 3 then 1 else 0) 1 3 10 = 3 / 16 ∧
    shaffSdp [Mem.py ladderTree, Mem.py rootSplit] [0, 2] (fun _ => 4) 4 diag (fun i => i) 1 3 10 4 = 13 / 16 := by decide +kernel

theorem live_one {mems : List Mem} (hm : mems ≠ []) {S : List Nat} {x : Row} {data : Nat → Row} {minSize N : Nat} (maxDepth : Nat)
    (h1 : 1 ≤ minSize) (h2 : minSize ≤ N) : cellSum (cellsPy mems S x data minSize maxDepth N) (fun _ => 1) = 1 := by
  rw [cellSum_one]
  unfold liveFrac
  rw [List.filter_eq_self.mpr, div_self]
  · unfold cellsPy; simpa using hm
  · intro c hc
    obtain ⟨mem, -, rfl⟩ := List.mem_map.1 hc
    have := (C23_python_min_size mem S x data minSize maxDepth N h2).1
    have h3 : mem.cellPy S x data minSize maxDepth N ≠ [] := by
      intro h; rw [h] at this; simp at this; omega
    simpa using h3

theorem cellSum_list_sum {α : Type} (cells : List (List Nat)) (l : List α) (f : α → Nat → ℚ) :
    (l.map fun a => cellSum cells (f a)).sum = cellSum cells fun i => (l.map fun a => f a i).sum := by
  induction l with
  | nil => simp [cellSum_zero]
  | cons a l ih => simp only [List.map_cons, List.sum_cons]; rw [ih, ← cellSum_add]

/-- **C81.** The SDP of the Python versions is a probability; over the distinct classes of the background outputs the SDPs add up to 1
as soon as `1 <= min_node_size <= N`; the regression SDP is non-decreasing in the radius and 1 when the radius covers all outputs. -/
theorem C81_probability (mems : List Mem) (hm : mems ≠ []) (S : List Nat) (x : Row) (data : Nat → Row) (y : Nat → ℚ) {minSize N : Nat}
    (maxDepth : Nat) :
    (∀ yx, 0 ≤ shaffSdpClf mems S x yx data y minSize maxDepth N ∧ shaffSdpClf mems S x yx data y minSize maxDepth N ≤ 1) ∧
    (∀ yx t, 0 ≤ shaffSdp mems S x yx data y minSize maxDepth N t ∧ shaffSdp mems S x yx data y minSize maxDepth N t ≤ 1) ∧
    (∀ yx t t', t ≤ t' → shaffSdp mems S x yx data y minSize maxDepth N t ≤ shaffSdp mems S x yx data y minSize maxDepth N t') ∧
    (1 ≤ minSize → minSize ≤ N →
      (∀ classes : List ℚ, classes.Nodup → (∀ i < N, y i ∈ classes) →
        (classes.map fun c => shaffSdpClf mems S x c data y minSize maxDepth N).sum = 1) ∧
      ∀ yx t, (∀ i < N, (y i - yx) ^ 2 ≤ t) → shaffSdp mems S x yx data y minSize maxDepth N t = 1) := by
  have hr : ∀ (P : Prop) [Decidable P], (0 : ℚ) ≤ (if P then 1 else 0) ∧ (if P then (1 : ℚ) else 0) ≤ 1 := by
    intro P _; split <;> norm_num
  refine ⟨fun yx => ?_, fun yx t => ?_, fun yx t t' htt => ?_, fun h1 h2 => ⟨fun classes hc hall => ?_, fun yx t hall => ?_⟩⟩
  · rw [shaffSdpClf_cells]; exact cellSum_range fun i => hr _
  · rw [shaffSdp_cells]; exact cellSum_range fun i => hr _
  · rw [shaffSdp_cells, shaffSdp_cells]
    refine cellSum_mono fun c _ i _ => ?_
    by_cases h : (y i - yx) ^ 2 ≤ t
    · rw [if_pos h, if_pos (le_trans h htt)]
    · rw [if_neg h]; exact (hr _).1
  · simp only [shaffSdpClf_cells]
    rw [cellSum_list_sum]
    refine Eq.trans (cellSum_congr (g := fun _ => 1) fun c hcm i hi => ?_) (live_one hm maxDepth h1 h2)
    have hiN : i < N := List.mem_range.1 ((cellsPy_sublist c hcm).subset hi)
    rw [← List.sum_toFinset _ hc]
    rw [Finset.sum_ite_eq]
    rw [if_pos (List.mem_toFinset.2 (hall i hiN))]
  · rw [shaffSdp_cells]
    refine Eq.trans (cellSum_congr (g := fun _ => 1) fun c hcm i hi => ?_) (live_one hm maxDepth h1 h2)
    rw [if_pos (hall i (List.mem_range.1 ((cellsPy_sublist c hcm).subset hi)))]

example : ((1 : Nat) ≤ 3 ∧ 3 ≤ 10) ∧ ([0, 1] : List ℚ).Nodup ∧ (∀ i < 10, (if i < 3 then (1 : ℚ) else 0) ∈ ([0, 1] : List ℚ)) ∧
    shaffSdpClf [Mem.py ladderTree, Mem.py rootSplit] [0, 2] (fun _ => 4) 0 diag (fun i => if i < 3 then 1 else 0) 3 3 10 = 13 / 16 ∧
    shaffSdpClf [Mem.py ladderTree, Mem.py rootSplit] [0, 2] (fun _ => 4) 1 diag (fun i => if i < 3 then 1 else 0) 3 3 10 = 3 / 16 := by
  decide +kernel

/-! ## Expectations -/

theorem cellSum_means (cells : List (List Nat)) (y : Nat → ℚ) :
    cellSum cells y = (cells.map fun c => (c.map y).sum / (c.length : ℚ)).sum / cells.length := by
  unfold cellSum
  generalize (cells.length : ℚ) = n
  rw [div_eq_mul_inv, ← List.sum_map_mul_right]
  congr 1
  apply List.map_congr_left
  intro c _
  rw [List.sum_map_mul_left]
  simp only [one_div, mul_inv]
  ring

theorem mapM_npMean (y : Nat → ℚ) : ∀ cells : List (List Nat), (∀ c ∈ cells, c ≠ []) →
    (cells.mapM fun c => npMean (c.map y)) = some (cells.map fun c => (c.map y).sum / (c.length : ℚ))
  | [], _ => rfl
  | c :: cells, h => by
    rw [List.mapM_cons, mapM_npMean y cells fun c hc => h c (List.mem_cons_of_mem _ hc)]
    have : npMean (c.map y) = some ((c.map y).sum / (c.length : ℚ)) := by
      unfold npMean
      rw [if_neg (by simpa using h c (by simp)), List.length_map]
    rw [this]
    rfl

theorem shaffExp_cells {mems : List Mem} (hm : mems ≠ []) {S : List Nat} {x : Row} {data : Nat → Row} (y : Nat → ℚ)
    {minSize maxDepth N : Nat} (h : ∀ c ∈ cellsPy mems S x data minSize maxDepth N, c ≠ []) :
    shaffExp mems S x data y minSize maxDepth N = some (cellSum (cellsPy mems S x data minSize maxDepth N) y) := by
  have e : (mems.mapM fun mem => npMean ((mem.cellPy S x data minSize maxDepth N).map y)) =
      (cellsPy mems S x data minSize maxDepth N).mapM fun c => npMean (c.map y) := by
    unfold cellsPy
    rw [List.mapM_map]
    rfl
  unfold shaffExp
  rw [e, mapM_npMean y _ h, cellSum_means]
  unfold npMean cellsPy
  simp [hm]

theorem cellsPy_ne {mems : List Mem} {S : List Nat} {x : Row} {data : Nat → Row} {minSize N : Nat} (maxDepth : Nat)
    (h1 : 1 ≤ minSize) (h2 : minSize ≤ N) : ∀ c ∈ cellsPy mems S x data minSize maxDepth N, c ≠ [] := by
  intro c hc
  obtain ⟨mem, -, rfl⟩ := List.mem_map.1 hc
  have := (C23_python_min_size mem S x data minSize maxDepth N h2).1
  intro h; rw [h] at this; simp at this; omega

/-- **C81.** With `1 <= min_node_size <= N`, `compute_exp_shaff` returns a number: the mean over the trees of the mean output of the
cell. It is the sum of the classes weighted by their SDPs, so it lies between the least and the greatest background output. -/
theorem C81_exp (mems : List Mem) (hm : mems ≠ []) (S : List Nat) (x : Row) (data : Nat → Row) (y : Nat → ℚ) {minSize N : Nat}
    (maxDepth : Nat) (h1 : 1 ≤ minSize) (h2 : minSize ≤ N) :
    ∃ v, shaffExp mems S x data y minSize maxDepth N = some v ∧
      v = (mems.map fun mem => ((mem.cellPy S x data minSize maxDepth N).map y).sum /
        ((mem.cellPy S x data minSize maxDepth N).length : ℚ)).sum / mems.length ∧
      (∀ classes : List ℚ, classes.Nodup → (∀ i < N, y i ∈ classes) →
        v = (classes.map fun c => c * shaffSdpClf mems S x c data y minSize maxDepth N).sum) ∧
      ∀ lo hi, (∀ i < N, lo ≤ y i ∧ y i ≤ hi) → lo ≤ v ∧ v ≤ hi := by
  refine ⟨_, shaffExp_cells hm y (cellsPy_ne maxDepth h1 h2), ?_, fun classes hc hall => ?_, fun lo hi hb => ?_⟩
  · rw [cellSum_means]
    unfold cellsPy
    rw [List.map_map, List.length_map]
    rfl
  · simp only [shaffSdpClf_cells, ← cellSum_mul]
    rw [cellSum_list_sum]
    refine cellSum_congr fun c hcm i hi => ?_
    have hiN : i < N := List.mem_range.1 ((cellsPy_sublist c hcm).subset hi)
    rw [← List.sum_toFinset _ hc]
    simp only [mul_ite, mul_one, mul_zero]
    rw [Finset.sum_ite_eq, if_pos (List.mem_toFinset.2 (hall i hiN))]
  · have h1' := live_one hm (S := S) (x := x) (data := data) maxDepth h1 h2
    have hin : ∀ c ∈ cellsPy mems S x data minSize maxDepth N, ∀ i ∈ c, i < N := fun c hcm i hi =>
      List.mem_range.1 ((cellsPy_sublist c hcm).subset hi)
    constructor
    · have := cellSum_mono (f := fun _ => lo * 1) (g := y) fun c hcm i hi => by rw [mul_one]; exact (hb i (hin c hcm i hi)).1
      rw [cellSum_mul, h1', mul_one] at this
      exact this
    · have := cellSum_mono (g := fun _ => hi * 1) (f := y) fun c hcm i hi => by rw [mul_one]; exact (hb i (hin c hcm i hi)).2
      rw [cellSum_mul, h1', mul_one] at this
      exact this

example : shaffExp [Mem.py ladderTree, Mem.py rootSplit] [0, 2] (fun _ => 4) diag (fun i => i) 1 3 10 = some (9 / 2) := by decide +kernel

/-- With `min_node_size = 0` a cell may be empty and the expectation is NaN. -/
example : shaffExp [Mem.py rootSplit] [0] (fun _ => 2) (fun _ _ => 0) (fun _ => 1) 0 1 1 = none := by decide +kernel

/-! ## Python against Cython -/

theorem scan_rows_le (mem : Mem) (push : List Int → Int → List Int) (S : List Nat) (x : Row) (data : Nat → Row) (minSize : Nat) :
    ∀ (nodes : List Int) (st : PState), (mem.scan push S x data minSize nodes st).rows.length ≤ st.rows.length
  | [], st => le_rfl
  | n :: ns, st => by
    have hv : (mem.visit push S x data n st).rows.length ≤ st.rows.length := by
      unfold Mem.visit
      simp only
      split
      · split
        · exact List.length_filter_le _ _
        · exact List.length_filter_le _ _
      · exact le_rfl
    unfold Mem.scan
    simp only
    split
    · exact hv
    · exact le_trans (scan_rows_le mem push S x data minSize ns _) hv

theorem levels_rows_le (mem : Mem) (push : List Int → Int → List Int) (S : List Nat) (x : Row) (data : Nat → Row) (minSize : Nat) :
    ∀ (k : Nat) (nodes : List Int) (st : PState), (mem.levels push S x data minSize k nodes st).rows.length ≤ st.rows.length
  | 0, _, st => le_rfl
  | k + 1, nodes, st => by
    unfold Mem.levels
    exact le_trans (levels_rows_le mem push S x data minSize k _ _) (scan_rows_le mem push S x data minSize nodes st)

theorem visit_visitPy (mem : Mem) (S : List Nat) (x : Row) (data : Nat → Row) (n : Int) (st : PState) :
    mem.visitPy S x data n st.child st.rows =
      ((mem.visit pushBack S x data n st).child, (mem.visit pushBack S x data n st).rows) := by
  unfold Mem.visit Mem.visitPy pushBack
  simp only
  split
  · split
    · simp only [Prod.mk.injEq, true_and]
      apply List.filter_congr
      intro i _
      rw [← decide_not]
      exact decide_eq_decide.2 (not_lt).symm
    · simp only [Prod.mk.injEq, true_and]
      apply List.filter_congr
      intro i _
      rw [← decide_not]
      exact decide_eq_decide.2 (not_le).symm
  · rfl

theorem scan_scanPy (mem : Mem) (S : List Nat) (x : Row) (data : Nat → Row) (minSize : Nat) :
    ∀ (nodes : List Int) (st : PState), minSize ≤ (mem.scan pushBack S x data minSize nodes st).rows.length →
      mem.scanPy S x data minSize nodes st.child st.rows =
        ((mem.scan pushBack S x data minSize nodes st).child, (mem.scan pushBack S x data minSize nodes st).rows)
  | [], st, _ => rfl
  | n :: ns, st, h => by
    unfold Mem.scan Mem.scanPy at *
    rw [visit_visitPy]
    simp only at h ⊢
    by_cases hs : (mem.visit pushBack S x data n st).rows.length < minSize
    · rw [if_pos hs] at h; omega
    · rw [if_neg hs] at h ⊢
      rw [if_neg hs]
      exact scan_scanPy mem S x data minSize ns _ h

theorem levels_levelsPy (mem : Mem) (S : List Nat) (x : Row) (data : Nat → Row) (minSize : Nat) :
    ∀ (k : Nat) (nodes : List Int) (st : PState), minSize ≤ (mem.levels pushBack S x data minSize k nodes st).rows.length →
      mem.levelsPy S x data minSize k nodes st.child st.rows = (mem.levels pushBack S x data minSize k nodes st).rows
  | 0, _, st, _ => rfl
  | k + 1, nodes, st, h => by
    unfold Mem.levels Mem.levelsPy at *
    rw [scan_scanPy mem S x data minSize nodes st (le_trans h (levels_rows_le mem pushBack S x data minSize k _ _))]
    exact levels_levelsPy mem S x data minSize k _ _ h

/-- When the vector walk ends with at least `min_node_size` rows, the Python walk ends with the same rows. -/
theorem cellPy_run (mem : Mem) (S : List Nat) (x : Row) (data : Nat → Row) (minSize maxDepth N : Nat) (r : Rule)
    (h : minSize ≤ (mem.run pushBack S x data minSize maxDepth N r).1.length) :
    mem.cellPy S x data minSize maxDepth N = (mem.run pushBack S x data minSize maxDepth N r).1 :=
  levels_levelsPy mem S x data minSize maxDepth [0] ⟨[], List.range N, r⟩ h

/-- Children are stored after their parents (all loaders: sklearn, xgboost, lightgbm, catboost, skranger number the nodes so). -/
def ChildrenAfter (t : TreeArr) : Prop := ∀ p c, ChildOf t p c → p < c

/-- Python reads the last node of the tree as the node before the first one, and the last node is a leaf. -/
theorem py_in {S : List Nat} {m : Nat} {t : TreeArr} (hwf : WellFormed t m) (hl : LeafChildren t) (hneg : NegLeafFeature t)
    (hc : ChildrenAfter t) : TreeIn S m t (Mem.py t) where
  wf := hwf
  holds := by
    intro n hn
    simp [Mem.py]
  leafChildren := hl
  negLeaf := hneg
  before := by
    obtain ⟨b, hb⟩ := hwf
    have h0 := size_pos hb
    have hlt : t.size - 1 < t.size := by omega
    have hleaf : t.left (t.size - 1) < 0 := by
      by_contra hcon
      have hcon : 0 ≤ t.left (t.size - 1) := by omega
      have hch : ChildOf t (t.size - 1) (t.left (t.size - 1)).toNat := ⟨hlt, Or.inl (by omega)⟩
      have h1 := hc _ _ hch
      have h2 := above_lt hb (Above.step hch (Above.refl _)) hlt
      omega
    have e : ((t.size : Int) + -1).toNat = t.size - 1 := by omega
    have hf := hneg _ hlt hleaf
    have hk := hl _ hlt hleaf
    unfold Mem.BeforeIsLeaf Mem.py
    simp only [show ¬ (0 : Int) ≤ -1 by omega, if_false, e]
    refine ⟨?_, hk.1, hk.2⟩
    rintro ⟨h1, -⟩
    omega

/-- The Python cells, like the Cython ones, are the rows that travel like `x`. -/
theorem cellsPy_rows {S : List Nat} {m : Nat} {x : Row} {data : Nat → Row} {minSize maxDepth N : Nat} {ts : List TreeArr} {mems : List Mem}
    (hf : List.Forall₂ (TreeIn S m) ts mems) (hdepth : ∀ t ∈ ts, t.maxDepth ≤ maxDepth)
    (hstop : ∀ t ∈ ts, ∃ L : List Nat, L.Nodup ∧ minSize ≤ L.length ∧
      ∀ i ∈ L, i < N ∧ ∀ n, ProjVisits t S x n ↔ ProjVisits t S (data i) n) :
    cellsPy mems S x data minSize maxDepth N = ts.map fun t => routeRows t S x data N := by
  induction hf with
  | nil => rfl
  | @cons t mem ts mems h1 _ ih =>
    obtain ⟨b, hb⟩ := h1.wf
    have hlen := length_routeRows hb (hstop t (by simp))
    have e : (mem.run pushBack S x data minSize maxDepth N Rule.init).1 = routeRows t S x data N := by
      obtain ⟨mem', hm', hb', he⟩ := run_leafLike mem_pushBack hb h1.leafChildren h1.holds h1.before
      rw [he, run_rows mem_pushBack hm' hb h1.negLeaf hb' hlen
        (fun k n ha => le_trans ((C04_depth_is_height ⟨b, hb⟩).1 k n ha) (hdepth t (by simp)))]
    have ih := ih (fun t ht => hdepth t (List.mem_cons_of_mem _ ht)) (fun t ht => hstop t (List.mem_cons_of_mem _ ht))
    unfold cellsPy at ih ⊢
    rw [List.map_cons, List.map_cons, ih, cellPy_run mem S x data minSize maxDepth N Rule.init (by rw [e]; exact hlen), e]

theorem cellsSet_rows {S : List Nat} {m : Nat} {x : Row} {data : Nat → Row} {minSize maxDepth N : Nat} {ts : List TreeArr} {mems : List Mem}
    (hf : List.Forall₂ (TreeIn S m) ts mems) (hdepth : ∀ t ∈ ts, t.maxDepth ≤ maxDepth)
    (hstop : ∀ t ∈ ts, ∃ L : List Nat, L.Nodup ∧ minSize ≤ L.length ∧
      ∀ i ∈ L, i < N ∧ ∀ n, ProjVisits t S x n ↔ ProjVisits t S (data i) n) (r : Rule) :
    (forestRun setInsert S x data minSize maxDepth N mems r).1 = ts.map fun t => routeRows t S x data N := by
  induction hf generalizing r with
  | nil => rfl
  | @cons t mem ts mems h1 _ ih =>
    obtain ⟨b, hb⟩ := h1.wf
    obtain ⟨mem', hm', hb', he⟩ := run_leafLike mem_setInsert hb h1.leafChildren h1.holds h1.before
    unfold forestRun
    simp only
    rw [List.map_cons, ih (fun t ht => hdepth t (List.mem_cons_of_mem _ ht)) (fun t ht => hstop t (List.mem_cons_of_mem _ ht)), he,
      run_rows mem_setInsert hm' hb h1.negLeaf hb' (length_routeRows hb (hstop t (by simp)))
        (fun k n ha => le_trans ((C04_depth_is_height ⟨b, hb⟩).1 k n ha) (hdepth t (by simp)))]

/-- The claim that the Python functions return what the Cython functions return, for a classifier. -/
def C81_claim : Prop :=
  ∀ (ts : List TreeArr) (mems : List Mem) (m : Nat) (S : List Nat), List.Forall₂ (TreeIn S m) ts mems → (∀ t ∈ ts, ChildrenAfter t) →
  ∀ (x : Row) (yx : ℚ) (data : Nat → Row) (y : Nat → ℚ) (minSize maxDepth N : Nat), (∀ t ∈ ts, t.maxDepth ≤ maxDepth) →
    minSize ≤ N →
    shaffSdpClf (ts.map Mem.py) S x yx data y minSize maxDepth N = sdpRf mems S x yx data y minSize maxDepth N true (0, 0)

theorem ladder_after : ChildrenAfter ladderTree := by
  rintro p c ⟨hp, h⟩
  have : ∀ p < ladderTree.size, (ladderTree.left p < 0 ∨ (p : Int) < ladderTree.left p) ∧ (ladderTree.right p < 0 ∨ (p : Int) < ladderTree.right p) := by
    decide
  have := this p hp
  rcases h with h | h <;> rw [h] at this <;> omega

/-- The claim is false: below `min_node_size` Python keeps the larger cell and Cython the smaller one. -/
theorem C81_python_is_cython_false : ¬ C81_claim := by
  intro h
  have := h [ladderTree] [Mem.ofTree ladderTree leafJunk] 3 [0, 1, 2] (.cons (ladderTree_in _) .nil) (by simpa using ladder_after)
    (fun _ => 4) 1 diag (fun i => if i < 6 then 1 else 0) 3 3 10 (by decide +kernel) (by decide)
  revert this
  decide +kernel

/-- **C81, partial**: when at least `min_node_size` background rows travel like `x` in every tree, `compute_sdp_clf_shaff`,
`compute_sdp_shaff` (radius `s ^ 2`) and `compute_exp_shaff` return what `compute_sdp_rf` (interval `[y - s, y + s]` for a regressor) and
`compute_exp_rf` return, whatever padding surrounds the trees in memory. Missing (false): an early stop. -/
theorem C81_python_is_cython_partial {S : List Nat} {m : Nat} {ts : List TreeArr} {mems : List Mem} (hne : ts ≠ [])
    (hf : List.Forall₂ (TreeIn S m) ts mems) (hc : ∀ t ∈ ts, ChildrenAfter t) {x : Row} (yx : ℚ) {data : Nat → Row} (y : Nat → ℚ)
    {minSize maxDepth N : Nat} (hdepth : ∀ t ∈ ts, t.maxDepth ≤ maxDepth) (hmin : 1 ≤ minSize)
    (hstop : ∀ t ∈ ts, ∃ L : List Nat, L.Nodup ∧ minSize ≤ L.length ∧
      ∀ i ∈ L, i < N ∧ ∀ n, ProjVisits t S x n ↔ ProjVisits t S (data i) n) {s : ℚ} (hs : 0 ≤ s) (t0 : ℚ × ℚ) :
    shaffSdpClf (ts.map Mem.py) S x yx data y minSize maxDepth N = sdpRf mems S x yx data y minSize maxDepth N true t0 ∧
    shaffSdp (ts.map Mem.py) S x yx data y minSize maxDepth N (s ^ 2) =
      sdpRf mems S x yx data y minSize maxDepth N false (yx - s, yx + s) ∧
    shaffExp (ts.map Mem.py) S x data y minSize maxDepth N = some (expRf mems S x data y minSize maxDepth N) := by
  have hpy : List.Forall₂ (TreeIn S m) ts (ts.map Mem.py) := by
    clear hstop hdepth hne
    induction hf with
    | nil => exact .nil
    | @cons t mem ts mems h1 _ ih =>
      exact .cons (py_in h1.wf h1.leafChildren h1.negLeaf (hc t (by simp))) (ih fun t ht => hc t (List.mem_cons_of_mem _ ht))
  have e : cellsPy (ts.map Mem.py) S x data minSize maxDepth N = cellsSet mems S x data minSize maxDepth N := by
    unfold cellsSet
    rw [cellsPy_rows hpy hdepth hstop, cellsSet_rows hf hdepth hstop]
  refine ⟨?_, ?_, ?_⟩
  · rw [shaffSdpClf_cells, e]
    unfold sdpRf sameDec ind
    refine cellSum_congr fun c _ i _ => ?_
    by_cases h : yx = y i
    · simp [h]
    · simp [h, Ne.symm h]
  · rw [shaffSdp_cells, e]
    unfold sdpRf sameDec ind
    refine cellSum_congr fun c _ i _ => ?_
    have : (y i - yx) ^ 2 ≤ s ^ 2 ↔ yx - s ≤ y i ∧ y i ≤ yx + s := by
      constructor
      · intro h
        constructor
        · by_contra hc; nlinarith
        · by_contra hc; nlinarith
      · rintro ⟨h1, h2⟩
        have : 0 ≤ (yx + s - y i) * (y i - (yx - s)) := mul_nonneg (by linarith) (by linarith)
        nlinarith
    simp only [Bool.false_eq_true, if_false, Bool.and_eq_true, decide_eq_true_eq, this]
  · rw [shaffExp_cells (by simpa using hne) y, e]
    · rfl
    · rw [cellsPy_rows hpy hdepth hstop]
      intro c hc
      obtain ⟨t, ht, rfl⟩ := List.mem_map.1 hc
      have hb : WellFormed t m := by
        have : ∀ {ts mems}, List.Forall₂ (TreeIn S m) ts mems → t ∈ ts → WellFormed t m := by
          intro ts mems h
          induction h with
          | nil => simp
          | cons h1 _ ih =>
            intro ht
            rcases List.mem_cons.1 ht with rfl | ht
            · exact h1.wf
            · exact ih ht
        exact this hf ht
      obtain ⟨b, hb⟩ := hb
      have := length_routeRows hb (hstop t ht)
      intro h0; rw [h0] at this; simp at this; omega

/-- hypotheses are met by a forest of two trees -/
example : List.Forall₂ (TreeIn [0, 2] 3) [ladderTree, rootSplit] [Mem.ofTree ladderTree leafJunk, Mem.ofTree rootSplit leafJunk] ∧
    ChildrenAfter ladderTree ∧
    shaffSdpClf ([ladderTree, rootSplit].map Mem.py) [0, 2] (diag 4) 1 diag (fun i => if i < 3 then 1 else 0) 1 3 10 =
      sdpRf [Mem.ofTree ladderTree leafJunk, Mem.ofTree rootSplit leafJunk] [0, 2] (diag 4) 1 diag (fun i => if i < 3 then 1 else 0) 1 3 10 true
        (0, 0) := by
  refine ⟨.cons (ladderTree_in _) (.cons (rootSplit_in _) .nil), ladder_after, by decide +kernel⟩

end Acv
