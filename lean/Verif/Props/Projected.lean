import Verif.Lemmas.ProjFull
import Verif.Props.Tree

/-!
# C21-C28: the projected forest
-/

namespace Acv

/-! Concrete forests used by the examples. -/

/-- `0: x0 <= 1 ? 1 : 2`, two leaves. -/
def rootSplit : TreeArr where
  size := 3
  left := fun n => ([1, -1, -1] : List Int).getD n (-1)
  right := fun n => ([2, -1, -1] : List Int).getD n (-1)
  dflt := fun n => ([1, -1, -1] : List Int).getD n (-1)
  feature := fun n => ([0, -2, -2] : List Int).getD n (-2)
  threshold := fun n => ([1, -2, -2] : List ℚ).getD n (-2)
  value := fun n _ => ([0, 10, 20] : List ℚ).getD n 0
  weight := fun _ => 1

theorem rootSplit_isTree : IsTree rootSplit 3 (.node 0 0 1 (.leaf 1) (.leaf 2)) where
  root := rfl
  enc := by simp [Encodes, rootSplit, BTree.id]
  nodup := by decide
  all := by intro n; simp [BTree.ids, rootSplit]; omega
  vars := by simp [BTree.vars]

/-- ```
0: x0 <= 1 ? 1 : 2        1: leaf
2: x1 <= 3 ? 3 : 4        3: leaf
4: x2 <= 5 ? 5 : 6        5, 6: leaves
``` -/
def ladderTree : TreeArr where
  size := 7
  left := fun n => ([1, -1, 3, -1, 5, -1, -1] : List Int).getD n (-1)
  right := fun n => ([2, -1, 4, -1, 6, -1, -1] : List Int).getD n (-1)
  dflt := fun n => ([1, -1, 3, -1, 5, -1, -1] : List Int).getD n (-1)
  feature := fun n => ([0, -2, 1, -2, 2, -2, -2] : List Int).getD n (-2)
  threshold := fun n => ([1, -2, 3, -2, 5, -2, -2] : List ℚ).getD n (-2)
  value := fun n _ => ([0, 10, 0, 20, 0, 30, 40] : List ℚ).getD n 0
  weight := fun _ => 1

def ladderBTree : BTree := .node 0 0 1 (.leaf 1) (.node 2 1 3 (.leaf 3) (.node 4 2 5 (.leaf 5) (.leaf 6)))

theorem ladderTree_isTree : IsTree ladderTree 3 ladderBTree where
  root := rfl
  enc := by simp [ladderBTree, Encodes, ladderTree, BTree.id]
  nodup := by decide
  all := by intro n; simp [ladderBTree, BTree.ids, ladderTree]; omega
  vars := by simp [ladderBTree, BTree.vars]

/-- The memory `mem` holds the well-formed tree `t`, stored the way the loaders store it (leaves have feature < 0 and
children -1), and the cell before it looks like a leaf or padding. -/
structure TreeIn (S : List Nat) (m : Nat) (t : TreeArr) (mem : Mem) : Prop where
  wf : WellFormed t m
  holds : mem.Holds t
  leafChildren : LeafChildren t
  negLeaf : NegLeafFeature t
  before : mem.BeforeIsLeaf S

theorem ladderTree_in (S : List Nat) : TreeIn S 3 ladderTree (Mem.ofTree ladderTree leafJunk) where
  wf := ⟨_, ladderTree_isTree⟩
  holds := ofTree_holds _ _
  leafChildren := by unfold LeafChildren ladderTree; decide
  negLeaf := by unfold NegLeafFeature ladderTree; decide
  before := by simp [Mem.BeforeIsLeaf, Mem.ofTree, leafJunk]

theorem rootSplit_in (S : List Nat) : TreeIn S 3 rootSplit (Mem.ofTree rootSplit leafJunk) where
  wf := ⟨_, rootSplit_isTree⟩
  holds := ofTree_holds _ _
  leafChildren := by unfold LeafChildren rootSplit; decide
  negLeaf := by unfold NegLeafFeature rootSplit; decide
  before := by simp [Mem.BeforeIsLeaf, Mem.ofTree, leafJunk]

/-- Row `i` is `(i, i, i)`. -/
def diag : Nat → Row := fun i _ => i

/-! ## C21 -/

/-- **C21, range.** For every forest in memory, data, set `S`, observation and `min_node_size`, the SDP and the DDP lie in
`[0, 1]`. -/
theorem C21_sdp_ddp_are_probabilities (mems : List Mem) (S : List Nat) (x : Row) (yx : ℚ) (data : Nat → Row) (y : Nat → ℚ)
    (minSize maxDepth N : Nat) (classifier : Bool) (t : ℚ × ℚ) :
    (0 ≤ sdpRf mems S x yx data y minSize maxDepth N classifier t ∧ sdpRf mems S x yx data y minSize maxDepth N classifier t ≤ 1) ∧
    (0 ≤ ddpRf mems S x yx data y minSize maxDepth N classifier t ∧ ddpRf mems S x yx data y minSize maxDepth N classifier t ≤ 1) := by
  refine ⟨cellSum_range fun i => ind_range _, cellSum_range fun i => ?_⟩
  split
  · exact ind_range _
  · have h1 := ind_range (decide (t.1 ≤ y i))
    have h2 := ind_range (decide (y i ≤ t.2))
    constructor
    · nlinarith
    · nlinarith

example : sdpRf [Mem.ofTree ladderTree leafJunk, Mem.ofTree rootSplit leafJunk] [0, 2] (fun _ => 4) 1 diag (fun i => if i < 3 then 1 else 0) 1 3 10
    true (0, 0) = 3 / 16 := by decide +kernel

/-- **C21, complement.** SDP + DDP is exactly the fraction of the trees whose cell is not empty ... -/
theorem C21_sum_is_live_fraction (mems : List Mem) (S : List Nat) (x : Row) (yx : ℚ) (data : Nat → Row) (y : Nat → ℚ)
    (minSize maxDepth N : Nat) (classifier : Bool) (t : ℚ × ℚ) :
    sdpRf mems S x yx data y minSize maxDepth N classifier t + ddpRf mems S x yx data y minSize maxDepth N classifier t =
      ((cellsSet mems S x data minSize maxDepth N).filter (· ≠ [])).length / mems.length := by
  unfold sdpRf ddpRf
  rw [← cellSum_add]
  have : ((cellsSet mems S x data minSize maxDepth N).length : ℚ) = mems.length := by
    unfold cellsSet; rw [forestRun_length]
  rw [← this]
  refine Eq.trans (cellSum_congr (g := fun _ => 1) ?_) (cellSum_one _)
  intro c _ i _
  unfold sameDec
  cases classifier
  · simp only [Bool.false_eq_true, if_false]
    by_cases h1 : t.1 ≤ y i <;> by_cases h2 : y i ≤ t.2 <;> simp [h1, h2, ind]
  · simp only [if_true]
    by_cases h : yx = y i <;> simp [h, ind]

/-- A sum over the cells of an indicator is the mean over the trees of the frequency in the cell. -/
theorem cellSum_freq (cells : List (List Nat)) (P : Nat → Prop) [DecidablePred P] :
    cellSum cells (fun i => if P i then 1 else 0) =
      (cells.map fun c => ((c.filter fun i => decide (P i)).length : ℚ) / c.length).sum / cells.length := by
  unfold cellSum
  generalize (cells.length : ℚ) = n
  rw [div_eq_mul_inv, ← List.sum_map_mul_right]
  congr 1
  apply List.map_congr_left
  intro c hc
  clear hc
  generalize (c.length : ℚ) = k
  induction c with
  | nil => simp
  | cons a c ih =>
    rw [List.map_cons, List.sum_cons, ih, List.filter_cons]
    by_cases h : P a
    · simp only [h, if_true, decide_true, List.length_cons, Nat.cast_add, Nat.cast_one]
      ring
    · simp [h]

/-- **C21.** The SDP is the mean over the trees of the frequency, among the rows of the tree's cell, of the outputs equal to that of
`x` (classifier) or inside `[t0, t1]` (regressor); the DDP that of the other outputs. An empty cell counts 0 in both. -/
theorem C21_is_mean_frequency (mems : List Mem) (S : List Nat) (x : Row) (yx : ℚ) (data : Nat → Row) (y : Nat → ℚ)
    (minSize maxDepth N : Nat) (t : ℚ × ℚ) :
    let mean := fun (P : Nat → Bool) =>
      ((cellsSet mems S x data minSize maxDepth N).map fun c => ((c.filter P).length : ℚ) / c.length).sum / mems.length
    sdpRf mems S x yx data y minSize maxDepth N true t = mean (fun i => decide (y i = yx)) ∧
    ddpRf mems S x yx data y minSize maxDepth N true t = mean (fun i => decide (y i ≠ yx)) ∧
    sdpRf mems S x yx data y minSize maxDepth N false t = mean (fun i => decide (t.1 ≤ y i ∧ y i ≤ t.2)) ∧
    ddpRf mems S x yx data y minSize maxDepth N false t = mean (fun i => decide (y i < t.1 ∨ t.2 < y i)) := by
  intro mean
  have hl : ((cellsSet mems S x data minSize maxDepth N).length : ℚ) = mems.length := by
    unfold cellsSet; rw [forestRun_length]
  have key : ∀ (P : Nat → Prop) [DecidablePred P], cellSum (cellsSet mems S x data minSize maxDepth N) (fun i => if P i then 1 else 0)
      = mean (fun i => decide (P i)) := by
    intro P _
    rw [cellSum_freq, hl]
  refine ⟨?_, ?_, ?_, ?_⟩
  · rw [← key]
    refine cellSum_congr fun c _ i _ => ?_
    by_cases h : y i = yx
    · simp [sameDec, ind, h]
    · simp [sameDec, ind, h, Ne.symm h]
  · rw [← key]
    refine cellSum_congr fun c _ i _ => ?_
    by_cases h : y i = yx
    · simp [ind, h]
    · simp [ind, h, Ne.symm h]
  · rw [← key]
    refine cellSum_congr fun c _ i _ => ?_
    by_cases h1 : t.1 ≤ y i <;> by_cases h2 : y i ≤ t.2 <;> simp [sameDec, ind, h1, h2]
  · rw [← key]
    refine cellSum_congr fun c _ i _ => ?_
    by_cases h1 : t.1 ≤ y i <;> by_cases h2 : y i ≤ t.2 <;> simp [ind, h1, h2]

example : cellsSet [Mem.ofTree ladderTree leafJunk, Mem.ofTree rootSplit leafJunk] [0, 2] (fun _ => 4) diag 1 3 10 =
    [[2, 3, 4, 5], [2, 3, 4, 5, 6, 7, 8, 9]] := by decide +kernel

/-- A background row that agrees with `x` on `S` is in every cell, so no cell is empty. -/
theorem no_empty_cell {mems : List Mem} {S : List Nat} {x : Row} {data : Nat → Row} {minSize maxDepth N : Nat}
    (h : ∃ i < N, SameOn S x (data i)) :
    (∀ c ∈ cellsSet mems S x data minSize maxDepth N, c ≠ []) ∧ ∀ c ∈ cellsVec mems S x data minSize maxDepth N, c ≠ [] := by
  obtain ⟨i, hi, hs⟩ := h
  exact ⟨fun c hc => List.ne_nil_of_mem (forestRun_keeps hi hs hc), fun c hc => List.ne_nil_of_mem (forestRun_keeps hi hs hc)⟩

/-- The claim of C21: DDP is the complement of SDP. -/
def C21_claim : Prop :=
  ∀ (ts : List TreeArr) (mems : List Mem) (S : List Nat) (m : Nat), ts ≠ [] → List.Forall₂ (TreeIn S m) ts mems →
  ∀ (x : Row) (yx : ℚ) (data : Nat → Row) (y : Nat → ℚ) (minSize maxDepth N : Nat) (classifier : Bool) (t : ℚ × ℚ), 0 < N →
    (∀ t ∈ ts, t.maxDepth ≤ maxDepth) →
    sdpRf mems S x yx data y minSize maxDepth N classifier t + ddpRf mems S x yx data y minSize maxDepth N classifier t = 1

/-- **C21's complement is false of the code**: when the cell of a tree becomes empty, SDP and DDP are both 0. -/
theorem C21_complement_false : ¬ C21_claim := by
  intro h
  have := h [rootSplit] [Mem.ofTree rootSplit leafJunk] [0] 3 (by simp) (.cons (rootSplit_in _) .nil) (fun _ => 2) 1 (fun _ _ => 0)
    (fun _ => 1) 1 1 1 true (0, 0) (by decide) (by decide)
  revert this
  decide +kernel

/-- **C21, partial**: the complement holds whenever no tree has an empty cell, in particular when some background row agrees
with `x` on `S` (`no_empty_cell`), e.g. when `x` is one of the background rows. Missing (false): an empty cell. -/
theorem C21_complement_partial {mems : List Mem} (hne : mems ≠ []) {S : List Nat} {x : Row} (yx : ℚ) {data : Nat → Row}
    (y : Nat → ℚ) {minSize maxDepth N : Nat} (classifier : Bool) (t : ℚ × ℚ)
    (hc : ∀ c ∈ cellsSet mems S x data minSize maxDepth N, c ≠ []) :
    sdpRf mems S x yx data y minSize maxDepth N classifier t + ddpRf mems S x yx data y minSize maxDepth N classifier t = 1 := by
  rw [C21_sum_is_live_fraction, List.filter_eq_self.mpr (by simpa using hc)]
  unfold cellsSet
  rw [forestRun_length, div_self]
  simpa using hne

example : (∀ c ∈ cellsSet [Mem.ofTree ladderTree leafJunk] [0, 2] (diag 4) diag 1 3 10, c ≠ []) ∧
    sdpRf [Mem.ofTree ladderTree leafJunk] [0, 2] (diag 4) 1 diag (fun i => if i < 3 then 1 else 0) 1 3 10 true (0, 0) = 1 / 4 ∧
    ddpRf [Mem.ofTree ladderTree leafJunk] [0, 2] (diag 4) 1 diag (fun i => if i < 3 then 1 else 0) 1 3 10 true (0, 0) = 3 / 4 := by
  refine ⟨(no_empty_cell ⟨4, by decide, fun _ _ => rfl⟩).1, by decide +kernel, by decide +kernel⟩

/-! ## C22 -/

theorem length_routeRows {t : TreeArr} {d b} (h : IsTree t d b) {S : List Nat} {x : Row} {data : Nat → Row} {N minSize : Nat}
    (hL : ∃ L : List Nat, L.Nodup ∧ minSize ≤ L.length ∧ ∀ i ∈ L, i < N ∧ ∀ n, ProjVisits t S x n ↔ ProjVisits t S (data i) n) :
    minSize ≤ (routeRows t S x data N).length := by
  obtain ⟨L, h1, h2, h3⟩ := hL
  refine le_trans h2 (List.Subperm.length_le (List.subperm_of_subset h1 ?_))
  intro i hi
  rw [mem_routeRows, sameRoute_iff h]
  exact h3 i hi

theorem forest_rows {push : List Int → Int → List Int} (hpush : ∀ l a c, c ∈ push l a ↔ c = a ∨ c ∈ l) {S : List Nat} {m : Nat} {x : Row}
    {data : Nat → Row} {minSize maxDepth N : Nat} {ts : List TreeArr} {mems : List Mem}
    (hf : List.Forall₂ (TreeIn S m) ts mems) (hdepth : ∀ t ∈ ts, t.maxDepth ≤ maxDepth)
    (hstop : ∀ t ∈ ts, ∃ L : List Nat, L.Nodup ∧ minSize ≤ L.length ∧
      ∀ i ∈ L, i < N ∧ ∀ n, ProjVisits t S x n ↔ ProjVisits t S (data i) n) (r : Rule) :
    List.Forall₂ (fun t c => c.Nodup ∧ ∀ i, i ∈ c ↔ i < N ∧ ∀ n, ProjVisits t S x n ↔ ProjVisits t S (data i) n) ts
      (forestRun push S x data minSize maxDepth N mems r).1 := by
  induction hf generalizing r with
  | nil => exact List.Forall₂.nil
  | @cons t mem ts mems h1 _ ih =>
    unfold forestRun
    simp only
    refine List.Forall₂.cons ?_ (ih (fun t ht => hdepth t (List.mem_cons_of_mem _ ht)) (fun t ht => hstop t (List.mem_cons_of_mem _ ht)) _)
    obtain ⟨b, hb⟩ := h1.wf
    obtain ⟨mem', hm', hb', he⟩ := run_leafLike hpush hb h1.leafChildren h1.holds h1.before
    rw [he, run_rows hpush hm' hb h1.negLeaf hb' (length_routeRows hb (hstop t (by simp)))
      (fun k n ha => le_trans ((C04_depth_is_height ⟨b, hb⟩).1 k n ha) (hdepth t (by simp)))]
    refine ⟨List.nodup_range.filter _, fun i => ?_⟩
    rw [mem_routeRows, sameRoute_iff hb]

/-- **C22.** For every well-formed forest and all data, `S` and `x`: when at least `min_node_size` background rows travel like
`x` (so that no early stop happens; nothing is assumed for `min_node_size = 0`), the rows used in each tree are exactly the
background rows whose projected descent visits the same nodes as the projected descent of `x`. This holds for the `std::set`
and for the vector variants of the code. -/
theorem C22_cell_is_same_route {S : List Nat} {m : Nat} {x : Row} {data : Nat → Row} {minSize maxDepth N : Nat}
    {ts : List TreeArr} {mems : List Mem} (hf : List.Forall₂ (TreeIn S m) ts mems) (hdepth : ∀ t ∈ ts, t.maxDepth ≤ maxDepth)
    (hstop : ∀ t ∈ ts, ∃ L : List Nat, L.Nodup ∧ minSize ≤ L.length ∧
      ∀ i ∈ L, i < N ∧ ∀ n, ProjVisits t S x n ↔ ProjVisits t S (data i) n) :
    List.Forall₂ (fun t c => c.Nodup ∧ ∀ i, i ∈ c ↔ i < N ∧ ∀ n, ProjVisits t S x n ↔ ProjVisits t S (data i) n) ts
      (cellsSet mems S x data minSize maxDepth N) ∧
    List.Forall₂ (fun t c => c.Nodup ∧ ∀ i, i ∈ c ↔ i < N ∧ ∀ n, ProjVisits t S x n ↔ ProjVisits t S (data i) n) ts
      (cellsVec mems S x data minSize maxDepth N) :=
  ⟨forest_rows mem_setInsert hf hdepth hstop _, forest_rows mem_pushBack hf hdepth hstop _⟩

/-- hypotheses are met by a forest of two trees, and the cells are non-trivial -/
example : List.Forall₂ (TreeIn [0, 2] 3) [ladderTree, rootSplit] [Mem.ofTree ladderTree leafJunk, Mem.ofTree rootSplit leafJunk] ∧
    (∀ t ∈ [ladderTree, rootSplit], t.maxDepth ≤ 3) ∧
    (∀ t ∈ [ladderTree, rootSplit], ∃ L : List Nat, L.Nodup ∧ 1 ≤ L.length ∧
      ∀ i ∈ L, i < 10 ∧ ∀ n, ProjVisits t [0, 2] (diag 4) n ↔ ProjVisits t [0, 2] (diag i) n) ∧
    cellsSet [Mem.ofTree ladderTree leafJunk, Mem.ofTree rootSplit leafJunk] [0, 2] (diag 4) diag 1 3 10 =
      [[2, 3, 4, 5], [2, 3, 4, 5, 6, 7, 8, 9]] := by
  refine ⟨.cons (ladderTree_in _) (.cons (rootSplit_in _) .nil), by decide +kernel, ?_, by decide +kernel⟩
  intro t _
  refine ⟨[4], by decide, by decide, fun i hi => ?_⟩
  rw [List.mem_singleton.mp hi]
  exact ⟨by decide, fun _ => Iff.rfl⟩

/-- **C22, all variables.** If `S` contains every tested column, the rows used in a tree are the background rows that end in
the leaf of `x`. -/
theorem C22_full_set_is_leaf {S : List Nat} {m : Nat} {x : Row} {data : Nat → Row} {minSize maxDepth N : Nat}
    {ts : List TreeArr} {mems : List Mem} (hf : List.Forall₂ (TreeIn S m) ts mems) (hS : ∀ j < m, j ∈ S)
    (hdepth : ∀ t ∈ ts, t.maxDepth ≤ maxDepth)
    (hstop : ∀ t ∈ ts, ∃ L : List Nat, L.Nodup ∧ minSize ≤ L.length ∧
      ∀ i ∈ L, i < N ∧ ∃ ℓ, EndsIn t (full x) ℓ ∧ EndsIn t (full (data i)) ℓ) :
    List.Forall₂ (fun t c => c.Nodup ∧ ∀ i, i ∈ c ↔ i < N ∧ ∃ ℓ, EndsIn t (full x) ℓ ∧ EndsIn t (full (data i)) ℓ) ts
      (cellsSet mems S x data minSize maxDepth N) := by
  have hfeat : ∀ {t : TreeArr} {b : BTree}, IsTree t m b → ∀ n < t.size, 0 ≤ t.left n → (t.feature n).toNat ∈ S := by
    intro t b hb n hn hl
    apply hS
    have key : ∀ {b : BTree}, Encodes t b → n ∈ b.ids → (∀ f ∈ b.vars, f < m) → (t.feature n).toNat < m := by
      intro b
      induction b with
      | leaf i => intro he hm _; simp only [BTree.ids, List.mem_singleton] at hm; subst hm; have := he.1; omega
      | node i f thr l r ihl ihr =>
        intro he hm hv
        simp only [BTree.ids, List.mem_cons, List.mem_append] at hm
        simp only [BTree.vars, List.mem_cons, List.mem_append] at hv
        rcases hm with rfl | hm | hm
        · rw [he.2.2.2.1]; exact hv _ (Or.inl rfl)
        · exact ihl he.2.2.2.2.2.1 hm fun f hf => hv f (Or.inr (Or.inl hf))
        · exact ihr he.2.2.2.2.2.2 hm fun f hf => hv f (Or.inr (Or.inr hf))
    exact key hb.enc ((hb.all n).mpr hn) hb.vars
  have hiff : ∀ t ∈ ts, ∀ z : Row, (∀ n, ProjVisits t S x n ↔ ProjVisits t S z n) ↔ ∃ ℓ, EndsIn t (full x) ℓ ∧ EndsIn t (full z) ℓ := by
    intro t ht z
    have : ∃ mem, TreeIn S m t mem := by
      clear hdepth hstop
      induction hf with
      | nil => simp at ht
      | cons h1 _ ih =>
        rcases List.mem_cons.mp ht with rfl | ht
        · exact ⟨_, h1⟩
        · exact ih ht
    obtain ⟨mem, hm⟩ := this
    obtain ⟨b, hb⟩ := hm.wf
    exact sameVisits_full hb (hfeat hb)
  have hmain := (C22_cell_is_same_route (x := x) (data := data) hf hdepth (fun t ht => by
    obtain ⟨L, h1, h2, h3⟩ := hstop t ht
    exact ⟨L, h1, h2, fun i hi => ⟨(h3 i hi).1, (hiff t ht _).mpr (h3 i hi).2⟩⟩)).1
  clear hstop hdepth hf
  generalize cellsSet mems S x data minSize maxDepth N = cells at hmain ⊢
  induction hmain with
  | nil => exact List.Forall₂.nil
  | cons h1 _ ih =>
    refine List.Forall₂.cons ⟨h1.1, fun i => ?_⟩ (ih fun t ht => hiff t (List.mem_cons_of_mem _ ht))
    rw [h1.2 i, hiff _ (by simp)]

example : cellsSet [Mem.ofTree ladderTree leafJunk] [0, 1, 2] (diag 4) diag 1 3 10 = [[4, 5]] ∧
    (∀ j < 3, j ∈ [0, 1, 2]) := by
  refine ⟨by decide +kernel, by decide⟩

/-! ## C23 -/

/-- **C23, Python versions.** Each tree's cell has at least `min_node_size` rows whenever the background has that many,
whatever the memory holds. -/
theorem C23_python_min_size (mem : Mem) (S : List Nat) (x : Row) (data : Nat → Row) (minSize maxDepth N : Nat) (hN : minSize ≤ N) :
    minSize ≤ (mem.cellPy S x data minSize maxDepth N).length ∧ ∀ i ∈ mem.cellPy S x data minSize maxDepth N, i < N := by
  have hscan : ∀ (nodes child : List Int) (samples : List Nat), minSize ≤ samples.length → (∀ i ∈ samples, i < N) →
      minSize ≤ (mem.scanPy S x data minSize nodes child samples).2.length ∧
        ∀ i ∈ (mem.scanPy S x data minSize nodes child samples).2, i < N := by
    intro nodes
    induction nodes with
    | nil => intro child samples h1 h2; exact ⟨h1, h2⟩
    | cons n ns ih =>
      intro child samples h1 h2
      unfold Mem.scanPy
      simp only
      split
      · exact ⟨h1, h2⟩
      · rename_i hlt
        apply ih _ _ (not_lt.mp hlt)
        intro i hi
        unfold Mem.visitPy at hi
        simp only at hi
        split at hi
        · split at hi
          · exact h2 i (List.mem_filter.mp hi).1
          · exact h2 i (List.mem_filter.mp hi).1
        · exact h2 i hi
  have hlev : ∀ (k : Nat) (nodes child : List Int) (samples : List Nat), minSize ≤ samples.length → (∀ i ∈ samples, i < N) →
      minSize ≤ (mem.levelsPy S x data minSize k nodes child samples).length ∧
        ∀ i ∈ mem.levelsPy S x data minSize k nodes child samples, i < N := by
    intro k
    induction k with
    | zero => intro _ _ samples h1 h2; exact ⟨h1, h2⟩
    | succ k ih =>
      intro nodes child samples h1 h2
      unfold Mem.levelsPy
      simp only
      have := hscan nodes child samples h1 h2
      exact ih _ _ _ this.1 this.2
  exact hlev _ _ _ _ (by simpa using hN) (by simp)

example : (Mem.ofTree ladderTree leafJunk).cellPy [0, 1, 2] (diag 4) diag 3 3 10 = [4, 5, 6, 7, 8, 9] := by decide +kernel

/-- The claim of C23 for the Cython functions. -/
def C23_claim : Prop :=
  ∀ (ts : List TreeArr) (mems : List Mem) (S : List Nat) (m : Nat), List.Forall₂ (TreeIn S m) ts mems →
  ∀ (x : Row) (data : Nat → Row) (minSize maxDepth N : Nat), (∀ t ∈ ts, t.maxDepth ≤ maxDepth) → minSize ≤ N →
    ∀ c ∈ cellsSet mems S x data minSize maxDepth N, minSize ≤ c.length

/-- **C23 is false of the Cython code**: the rows are filtered before the size test, so the cell that is used may have fewer
rows than `min_node_size` (here 2 instead of 3, although 10 rows are available). -/
theorem C23_cython_false : ¬ C23_claim := by
  intro h
  have := h [ladderTree] [Mem.ofTree ladderTree leafJunk] [0, 1, 2] 3 (.cons (ladderTree_in _) .nil) (diag 4) diag 3 3 10
    (by decide +kernel) (by decide)
  revert this
  decide +kernel

/-- **C23, Cython, partial**: the bound holds when at least `min_node_size` background rows agree with `x` on `S`.
Missing (false): the other cases. -/
theorem C23_cython_min_size_partial {mems : List Mem} {S : List Nat} {x : Row} {data : Nat → Row} {minSize maxDepth N : Nat}
    (h : ∃ L : List Nat, L.Nodup ∧ minSize ≤ L.length ∧ ∀ i ∈ L, i < N ∧ SameOn S x (data i)) :
    ∀ c ∈ cellsSet mems S x data minSize maxDepth N, minSize ≤ c.length := by
  obtain ⟨L, h1, h2, h3⟩ := h
  intro c hc
  refine le_trans h2 (List.Subperm.length_le (List.subperm_of_subset h1 fun i hi => ?_))
  exact forestRun_keeps (h3 i hi).1 (h3 i hi).2 hc

example : ∃ L : List Nat, L.Nodup ∧ 2 ≤ L.length ∧ ∀ i ∈ L, i < 10 ∧ SameOn [0] (fun _ => 0) ((fun i j => if j = 0 then ((i % 2 : Nat) : ℚ) else (i : ℚ)) i) :=
  ⟨[0, 2], by decide, by decide, by simp [SameOn]⟩

/-- The cell that is used may even be empty. -/
theorem C23_cython_cell_may_be_empty :
    cellsSet [Mem.ofTree rootSplit leafJunk] [0] (fun _ => 2) (fun _ _ => 0) 1 1 1 = [[]] := by decide +kernel

/-! ## C24 -/

/-- The claim of C24: two memories that hold the same forest give the same SDP. -/
def C24_claim : Prop :=
  ∀ (ts : List TreeArr) (mems mems' : List Mem) (m : Nat), (∀ t ∈ ts, WellFormed t m ∧ LeafChildren t ∧ NegLeafFeature t) →
  List.Forall₂ (fun t mem => Mem.Holds mem t) ts mems → List.Forall₂ (fun t mem => Mem.Holds mem t) ts mems' →
  ∀ (S : List Nat) (x : Row) (yx : ℚ) (data : Nat → Row) (y : Nat → ℚ) (minSize maxDepth N : Nat) (classifier : Bool) (t : ℚ × ℚ),
  (∀ t ∈ ts, t.maxDepth ≤ maxDepth) →
  sdpRf mems S x yx data y minSize maxDepth N classifier t = sdpRf mems' S x yx data y minSize maxDepth N classifier t

/-- Junk that looks like a split on column 0 with threshold -5. -/
def splitJunk : Mem := ⟨fun _ => 0, fun _ => -5, fun _ => -1, fun _ => -1⟩

/-- **C24 is false of the code**: with a leaf two levels above the deepest leaf, the walk reads the cell of index -1, before
the tree, and the SDP depends on what is there (1/2 or 1). -/
theorem C24_reads_outside_false : ¬ C24_claim := by
  intro h
  have := h [ladderTree] [Mem.ofTree ladderTree leafJunk] [Mem.ofTree ladderTree splitJunk] 3
    (by
      intro t ht
      rw [List.mem_singleton.mp ht]
      exact ⟨(ladderTree_in []).wf, (ladderTree_in []).leafChildren, (ladderTree_in []).negLeaf⟩)
    (.cons (ofTree_holds _ _) .nil) (.cons (ofTree_holds _ _) .nil) [0] (fun _ => 0) 1 (fun i _ => if i = 0 then 0 else -6)
    (fun i => if i = 0 then 1 else 0) 0 3 2 true (0, 0) (by decide +kernel)
  revert this
  decide +kernel

theorem forest_sim {push : List Int → Int → List Int} {S : List Nat} {m : Nat} {x : Row} {data : Nat → Row} {minSize maxDepth N : Nat}
    {ts : List TreeArr} {mems mems' : List Mem} {R R' : TreeArr → Mem → Prop}
    (hrun : ∀ t mem mem', t ∈ ts → R t mem → R' t mem' → ∀ r, mem.run push S x data minSize maxDepth N r = mem'.run push S x data minSize maxDepth N r)
    (h : List.Forall₂ R ts mems) (h' : List.Forall₂ R' ts mems') (r : Rule) :
    forestRun push S x data minSize maxDepth N mems r = forestRun push S x data minSize maxDepth N mems' r := by
  induction h generalizing mems' r with
  | nil => cases h'; rfl
  | cons h1 _ ih =>
    cases h' with
    | cons h1' h2' =>
      unfold forestRun
      simp only
      rw [hrun _ _ _ (by simp) h1 h1', ih (fun t mem mem' ht => hrun t mem mem' (List.mem_cons_of_mem _ ht)) h2']

/-- **C24, partial**: if the cell before each tree looks like a leaf or like padding, nothing else outside the forest
matters: cells, rules and therefore all estimates (SDP, DDP, weights, rule, mean, CDF) are the same. This covers every tree
but the first of a forest stored in one array (`C24_interior_trees`). Missing (false): the first tree, whose cell -1 is
whatever precedes the array. -/
theorem C24_depends_on_forest_only_partial {S : List Nat} {m : Nat} {ts : List TreeArr} {mems mems' : List Mem}
    (h : List.Forall₂ (TreeIn S m) ts mems) (h' : List.Forall₂ (TreeIn S m) ts mems') (x : Row) (data : Nat → Row)
    (minSize maxDepth N : Nat) (r : Rule) :
    forestRun setInsert S x data minSize maxDepth N mems r = forestRun setInsert S x data minSize maxDepth N mems' r ∧
    forestRun pushBack S x data minSize maxDepth N mems r = forestRun pushBack S x data minSize maxDepth N mems' r := by
  constructor
  · refine forest_sim (m := m) (fun t mem mem' _ h1 h2 r => ?_) h h' r
    obtain ⟨b, hb⟩ := h1.wf
    obtain ⟨k, k1, k2, k3⟩ := run_leafLike mem_setInsert hb h1.leafChildren h1.holds h1.before
    obtain ⟨k', k1', k2', k3'⟩ := run_leafLike mem_setInsert hb h1.leafChildren h2.holds h2.before
    rw [k3, k3']
    exact run_sim hb k1 k1' k2 k2' _ _ _
  · refine forest_sim (m := m) (fun t mem mem' _ h1 h2 r => ?_) h h' r
    obtain ⟨b, hb⟩ := h1.wf
    obtain ⟨k, k1, k2, k3⟩ := run_leafLike mem_pushBack hb h1.leafChildren h1.holds h1.before
    obtain ⟨k', k1', k2', k3'⟩ := run_leafLike mem_pushBack hb h1.leafChildren h2.holds h2.before
    rw [k3, k3']
    exact run_simV hb k1 k1' k2 k2' _ _ _

/-- two different memories that meet the hypotheses -/
example : TreeIn [0] 3 ladderTree (Mem.ofTree ladderTree leafJunk) ∧
    TreeIn [0] 3 ladderTree (Mem.ofTree ladderTree ⟨fun n => if n = -1 then 7 else 0, fun _ => 3, fun n => if n = -1 then -1 else 5, fun n => if n = -1 then -1 else 5⟩) :=
  ⟨ladderTree_in _, (ladderTree_in [0]).wf, ofTree_holds _ _, (ladderTree_in [0]).leafChildren, (ladderTree_in [0]).negLeaf, by
    simp [Mem.BeforeIsLeaf, Mem.ofTree]⟩

/-- The row-major layout of a padded array: cell `n` of tree `b` is element `b * L + n`. -/
def Mem.rowMajor (A : Mem) (L b : Nat) : Mem :=
  ⟨fun n => A.feat (b * L + n), fun n => A.thr (b * L + n), fun n => A.lc (b * L + n), fun n => A.rc (b * L + n)⟩

/-- **C24, interior trees.** In a forest stored in one padded array, the cell before tree `b + 1` is the last cell of tree `b`.
If that cell is padding (-1) or a leaf of tree `b`, the hypothesis of the partial theorem holds for tree `b + 1`. -/
theorem C24_interior_trees (A : Mem) {L b : Nat} (hL : 0 < L) (S : List Nat)
    (hlast : (A.rowMajor L b).feat ((L : Int) - 1) < 0 ∧ (A.rowMajor L b).lc ((L : Int) - 1) = -1 ∧
      (A.rowMajor L b).rc ((L : Int) - 1) = -1) : (A.rowMajor L (b + 1)).BeforeIsLeaf S := by
  have e : (b * L : Int) + ((L : Int) - 1) = ((b + 1 : Nat) : Int) * L + -1 := by push_cast; ring
  unfold Mem.BeforeIsLeaf
  simp only [Mem.rowMajor] at hlast ⊢
  rw [e] at hlast
  refine ⟨fun h => ?_, hlast.2.1, hlast.2.2⟩
  omega

example : ((⟨fun _ => -1, fun _ => 0, fun _ => -1, fun _ => -1⟩ : Mem).rowMajor 7 0).feat ((7 : Int) - 1) < 0 := by decide

/-- **C24, balanced trees.** When all leaves of all trees are at depth `max_depth`, only cells of the forest are read: two
memories that hold the forest give the same cells and rule, whatever surrounds it. -/
theorem C24_balanced {S : List Nat} {m : Nat} {ts : List TreeArr} (hwf : ∀ t ∈ ts, WellFormed t m) {maxDepth : Nat}
    (hbal : ∀ t ∈ ts, ∀ k n, Above t k 0 n → t.left n < 0 → k = maxDepth) {mems mems' : List Mem}
    (h : List.Forall₂ (fun t mem => Mem.Holds mem t) ts mems) (h' : List.Forall₂ (fun t mem => Mem.Holds mem t) ts mems')
    (x : Row) (data : Nat → Row) (minSize N : Nat) (r : Rule) :
    forestRun setInsert S x data minSize maxDepth N mems r = forestRun setInsert S x data minSize maxDepth N mems' r ∧
    forestRun pushBack S x data minSize maxDepth N mems r = forestRun pushBack S x data minSize maxDepth N mems' r := by
  constructor
  · refine forest_sim (m := m) (fun t mem mem' ht h1 h2 r => ?_) h h' r
    obtain ⟨b, hb⟩ := hwf t ht
    exact run_perfect mem_setInsert hb h1 h2 (hbal t ht) N r
  · refine forest_sim (m := m) (fun t mem mem' ht h1 h2 r => ?_) h h' r
    obtain ⟨b, hb⟩ := hwf t ht
    exact run_perfect mem_pushBack hb h1 h2 (hbal t ht) N r

example : WellFormed rootSplit 3 ∧ ∀ k n, Above rootSplit k 0 n → rootSplit.left n < 0 → k = 1 := by
  refine ⟨⟨_, rootSplit_isTree⟩, ?_⟩
  intro k n ha hl
  cases ha with
  | refl => revert hl; decide
  | step hc ha' =>
    rename_i k q
    cases ha' with
    | refl => rfl
    | step hc' _ =>
      exfalso
      have hq : q = 1 ∨ q = 2 := by
        rcases hc.2 with h | h
        · have : rootSplit.left 0 = 1 := rfl
          omega
        · have : rootSplit.right 0 = 2 := rfl
          omega
      rcases hq with rfl | rfl
      · rcases hc'.2 with h | h
        · have : rootSplit.left 1 = -1 := rfl
          omega
        · have : rootSplit.right 1 = -1 := rfl
          omega
      · rcases hc'.2 with h | h
        · have : rootSplit.left 2 = -1 := rfl
          omega
        · have : rootSplit.right 2 = -1 := rfl
          omega

/-! ## C25, C26 -/

/-- The claim of C25: the rule of `x` contains `x`. -/
def C25_claim : Prop :=
  ∀ (ts : List TreeArr) (mems : List Mem) (S : List Nat) (m : Nat), List.Forall₂ (TreeIn S m) ts mems →
  ∀ (x : Row) (yx : ℚ) (data : Nat → Row) (y : Nat → ℚ) (minSize maxDepth N : Nat) (classifier : Bool) (t : ℚ × ℚ),
    InRule m (sdpRule mems S x yx data y minSize maxDepth N classifier t).2 x

/-- **C25 is false of the code** for values beyond `1e10`: the rule starts from the box `[-1e10, 1e10]`. -/
theorem C25_huge_values_false : ¬ C25_claim := by
  intro h
  have := h [rootSplit] [Mem.ofTree rootSplit leafJunk] [0] 3 (.cons (rootSplit_in _) .nil) (fun _ => 20000000000) 0 diag (fun _ => 0) 0 1 10
    true (0, 0) 1 (by decide)
  revert this
  decide +kernel

/-- **C25, partial**: for every forest in memory, data, `S` and `min_node_size`, the rule of `x` contains `x` as soon as all
values of `x` are in `(-1e10, 1e10]`. Missing (false): larger values. -/
theorem C25_rule_contains_instance_partial (mems : List Mem) (S : List Nat) (m : Nat) {x : Row} (yx : ℚ) (data : Nat → Row)
    (y : Nat → ℚ) (minSize maxDepth N : Nat) (classifier : Bool) (t : ℚ × ℚ)
    (hx : ∀ j < m, -10000000000 < x j ∧ x j ≤ 10000000000) :
    InRule m (sdpRule mems S x yx data y minSize maxDepth N classifier t).2 x := by
  unfold sdpRule
  exact forestRun_contains mems _ hx

example : (sdpRule [Mem.ofTree ladderTree leafJunk] [0, 2] (diag 4) 1 diag (fun _ => 0) 1 3 10 true (0, 0)).2 0 = (1, 10000000000) ∧
    (sdpRule [Mem.ofTree ladderTree leafJunk] [0, 2] (diag 4) 1 diag (fun _ => 0) 1 3 10 true (0, 0)).2 2 = (-10000000000, 5) ∧
    ∀ j < 3, -10000000000 < diag 4 j ∧ diag 4 j ≤ 10000000000 := by
  refine ⟨by decide +kernel, by decide +kernel, ?_⟩
  intro j _
  unfold diag
  norm_num

/-- **C26.** For every forest in memory, data, `S` within the `m` columns, `min_node_size`, target output and tolerance
interval: every observation `z` in the rule of `x` has the same SDP and the same rule as `x`, and also the same weights, mean
and DDP. -/
theorem C26_same_sdp_in_rule (mems : List Mem) {S : List Nat} {m : Nat} (hS : ∀ s ∈ S, s < m) {x z : Row} (yx : ℚ) (data : Nat → Row)
    (y : Nat → ℚ) (minSize maxDepth N : Nat) (classifier : Bool) (t : ℚ × ℚ)
    (hz : InRule m (sdpRule mems S x yx data y minSize maxDepth N classifier t).2 z) :
    sdpRule mems S z yx data y minSize maxDepth N classifier t = sdpRule mems S x yx data y minSize maxDepth N classifier t ∧
    sdpRf mems S z yx data y minSize maxDepth N classifier t = sdpRf mems S x yx data y minSize maxDepth N classifier t ∧
    ddpRf mems S z yx data y minSize maxDepth N classifier t = ddpRf mems S x yx data y minSize maxDepth N classifier t ∧
    (∀ i, ruleWeights mems S z data minSize maxDepth N i = ruleWeights mems S x data minSize maxDepth N i) ∧
    expRf mems S z data y minSize maxDepth N = expRf mems S x data y minSize maxDepth N := by
  have h := forestRun_same (z := z) (data := data) (minSize := minSize) (maxDepth := maxDepth) (N := N) mems Rule.init
    (fun j hj => hz j (hS j hj))
  unfold sdpRule sdpRf ddpRf ruleWeights expRf cellsSet
  rw [h]
  exact ⟨rfl, rfl, rfl, fun _ => rfl, rfl⟩

example : InRule 3 (sdpRule [Mem.ofTree ladderTree leafJunk] [0, 2] (diag 4) 1 diag (fun _ => 0) 1 3 10 true (0, 0)).2 (fun j => if j = 0 then 7 else 2) := by
  unfold InRule
  decide +kernel

/-- The SDP returned with the rule is the SDP of `compute_sdp_rf`. -/
theorem C26_rule_sdp_is_sdp (mems : List Mem) (S : List Nat) (x : Row) (yx : ℚ) (data : Nat → Row)
    (y : Nat → ℚ) (minSize maxDepth N : Nat) (classifier : Bool) (t : ℚ × ℚ) :
    (sdpRule mems S x yx data y minSize maxDepth N classifier t).1 = sdpRf mems S x yx data y minSize maxDepth N classifier t := rfl

/-! ## C27 -/

/-- **C27.** For every forest in memory: the weights are non-negative; the weight of a row is positive exactly when some tree
uses the row; the SDP is the weighted frequency of the rows with the same output; and the weights sum to the fraction of trees
with a non-empty cell. -/
theorem C27_weights (mems : List Mem) (S : List Nat) (x : Row) (data : Nat → Row) (minSize maxDepth N : Nat) :
    (∀ i, 0 ≤ ruleWeights mems S x data minSize maxDepth N i) ∧
    (∀ i, 0 < ruleWeights mems S x data minSize maxDepth N i ↔ ∃ c ∈ cellsSet mems S x data minSize maxDepth N, i ∈ c) ∧
    (∀ yx y classifier t, sdpRf mems S x yx data y minSize maxDepth N classifier t =
      ((List.range N).map fun i => ruleWeights mems S x data minSize maxDepth N i * ind (sameDec classifier yx t (y i))).sum) ∧
    ((List.range N).map fun i => ruleWeights mems S x data minSize maxDepth N i).sum =
      ((cellsSet mems S x data minSize maxDepth N).filter (· ≠ [])).length / mems.length := by
  have hsub : ∀ c ∈ cellsSet mems S x data minSize maxDepth N, c.Sublist (List.range N) := fun c hc => forestRun_sublist hc
  have hnn : ∀ i, ∀ a ∈ (cellsSet mems S x data minSize maxDepth N).map
      (fun c => (c.count i : ℚ) * (1 / (((cellsSet mems S x data minSize maxDepth N).length : ℚ) * c.length))), 0 ≤ a := by
    intro i a ha
    obtain ⟨c, _, rfl⟩ := List.mem_map.mp ha
    exact mul_nonneg (Nat.cast_nonneg _) (div_nonneg zero_le_one (mul_nonneg (Nat.cast_nonneg _) (Nat.cast_nonneg _)))
  have h0 : ∀ i, 0 ≤ ruleWeights mems S x data minSize maxDepth N i := fun i => List.sum_nonneg (hnn i)
  refine ⟨h0, ?_, ?_, ?_⟩
  · intro i
    constructor
    · intro hpos
      by_contra hno
      push Not at hno
      have : ruleWeights mems S x data minSize maxDepth N i = 0 := by
        apply List.sum_eq_zero
        intro a ha
        obtain ⟨c, hc, rfl⟩ := List.mem_map.mp ha
        rw [List.count_eq_zero_of_not_mem (hno c hc)]
        simp
      linarith
    · rintro ⟨c, hc, hi⟩
      refine lt_of_lt_of_le ?_ (List.single_le_sum (hnn i) _ (List.mem_map.mpr ⟨c, hc, rfl⟩))
      apply mul_pos
      · exact_mod_cast List.count_pos_iff.mpr hi
      · apply div_pos zero_lt_one
        apply mul_pos
        · exact_mod_cast List.length_pos_of_mem hc
        · exact_mod_cast List.length_pos_of_mem hi
  · intro yx y classifier t
    exact cellSum_weights hsub _
  · have := cellSum_weights hsub (fun _ => 1)
    simp only [mul_one] at this
    have hl : ((cellsSet mems S x data minSize maxDepth N).length : ℚ) = mems.length := by
      unfold cellsSet; rw [forestRun_length]
    rw [← hl]
    exact this.symm.trans (cellSum_one _)

example : (List.range 10).map (ruleWeights [Mem.ofTree ladderTree leafJunk, Mem.ofTree rootSplit leafJunk] [0, 2] (diag 4) diag 1 3 10) =
    [0, 0, 3/16, 3/16, 3/16, 3/16, 1/16, 1/16, 1/16, 1/16] := by decide +kernel

/-- **C27, normalisation, is false of the code** when a cell is empty: here all weights are 0. -/
theorem C27_sum_one_false :
    TreeIn [0] 3 rootSplit (Mem.ofTree rootSplit leafJunk) ∧
    ((List.range 1).map (ruleWeights [Mem.ofTree rootSplit leafJunk] [0] (fun _ => 2) (fun _ _ => 0) 1 1 1)).sum = 0 :=
  ⟨rootSplit_in _, by decide +kernel⟩

/-- **C27, normalisation, partial**: the weights sum to 1 when no cell is empty, e.g. when a background row agrees with `x` on
`S`. Missing (false): an empty cell. -/
theorem C27_sum_one_partial {mems : List Mem} (hne : mems ≠ []) {S : List Nat} {x : Row} {data : Nat → Row} {minSize maxDepth N : Nat}
    (hc : ∀ c ∈ cellsSet mems S x data minSize maxDepth N, c ≠ []) :
    ((List.range N).map fun i => ruleWeights mems S x data minSize maxDepth N i).sum = 1 := by
  rw [(C27_weights mems S x data minSize maxDepth N).2.2.2, List.filter_eq_self.mpr (by simpa using hc)]
  unfold cellsSet
  rw [forestRun_length, div_self]
  simpa using hne

example : ∀ c ∈ cellsSet [Mem.ofTree ladderTree leafJunk, Mem.ofTree rootSplit leafJunk] [0, 2] (diag 4) diag 1 3 10, c ≠ [] :=
  (no_empty_cell ⟨4, by decide, fun _ _ => rfl⟩).1

/-! ## C28 -/

/-- **C28, CDF.** For every forest in memory, data, `S` and `x`, the estimated CDF is non-decreasing in the threshold, lies in
`[0, 1]` and is 0 below all background outputs; above all outputs it is the fraction of trees with a non-empty cell. -/
theorem C28_cdf (mems : List Mem) (S : List Nat) (x : Row) (data : Nat → Row) (y : Nat → ℚ) (minSize maxDepth N : Nat) :
    (∀ a b, a ≤ b → cdfRf mems S x data y minSize maxDepth N a ≤ cdfRf mems S x data y minSize maxDepth N b) ∧
    (∀ a, 0 ≤ cdfRf mems S x data y minSize maxDepth N a ∧ cdfRf mems S x data y minSize maxDepth N a ≤ 1) ∧
    (∀ a, (∀ i < N, a < y i) → cdfRf mems S x data y minSize maxDepth N a = 0) ∧
    (∀ a, (∀ i < N, y i ≤ a) → cdfRf mems S x data y minSize maxDepth N a =
      ((cellsVec mems S x data minSize maxDepth N).filter (· ≠ [])).length / mems.length) := by
  have hlt : ∀ c ∈ cellsVec mems S x data minSize maxDepth N, ∀ i ∈ c, i < N := fun c hc i hi =>
    List.mem_range.mp ((forestRun_sublist hc).subset hi)
  refine ⟨?_, fun a => cellSum_range fun i => ind_range _, ?_, ?_⟩
  · intro a b hab
    apply cellSum_mono
    intro c _ i _
    by_cases h : y i ≤ a
    · have : y i ≤ b := le_trans h hab
      simp [h, this]
    · simp only [h, decide_false]
      exact (ind_range _).1
  · intro a ha
    refine Eq.trans (cellSum_congr (g := fun _ => 0) ?_) (cellSum_zero _)
    intro c hc i hi
    simp [ind, ha i (hlt c hc i hi)]
  · intro a ha
    have hl : ((cellsVec mems S x data minSize maxDepth N).length : ℚ) = mems.length := by
      unfold cellsVec; rw [forestRun_length]
    rw [← hl]
    refine Eq.trans (cellSum_congr (g := fun _ => 1) ?_) (cellSum_one _)
    intro c hc i hi
    simp [ind, ha i (hlt c hc i hi)]

example : cdfRf [Mem.ofTree ladderTree leafJunk, Mem.ofTree rootSplit leafJunk] [0, 2] (diag 4) diag (fun i => i) 1 3 10 3 = 3 / 8 := by
  decide +kernel

/-- **C28, partial**: when no cell is empty, the CDF is 1 above all outputs and the mean lies between any lower and upper bound of
the background outputs, hence between their minimum and maximum. Missing (false): empty cells. -/
theorem C28_partial {mems : List Mem} (hne : mems ≠ []) {S : List Nat} {x : Row} {data : Nat → Row} (y : Nat → ℚ)
    {minSize maxDepth N : Nat} (hc : ∀ c ∈ cellsSet mems S x data minSize maxDepth N, c ≠ [])
    (hv : ∀ c ∈ cellsVec mems S x data minSize maxDepth N, c ≠ []) :
    (∀ a, (∀ i < N, y i ≤ a) → cdfRf mems S x data y minSize maxDepth N a = 1) ∧
    (∀ lo hi, (∀ i < N, lo ≤ y i ∧ y i ≤ hi) → lo ≤ expRf mems S x data y minSize maxDepth N ∧
      expRf mems S x data y minSize maxDepth N ≤ hi) := by
  constructor
  · intro a ha
    rw [(C28_cdf mems S x data y minSize maxDepth N).2.2.2 a ha, List.filter_eq_self.mpr (by simpa using hv)]
    unfold cellsVec
    rw [forestRun_length, div_self]
    simpa using hne
  · intro lo hi hb
    have hlt : ∀ c ∈ cellsSet mems S x data minSize maxDepth N, ∀ i ∈ c, i < N := fun c hc i hi =>
      List.mem_range.mp ((forestRun_sublist hc).subset hi)
    have hone : cellSum (cellsSet mems S x data minSize maxDepth N) (fun _ => 1) = 1 := by
      rw [cellSum_one]
      refine liveFrac_eq_one ?_ hc
      intro h0
      have := congrArg List.length h0
      unfold cellsSet at this
      rw [forestRun_length] at this
      exact hne (List.length_eq_zero_iff.mp this)
    have hconst : ∀ a : ℚ, cellSum (cellsSet mems S x data minSize maxDepth N) (fun _ => a) = a := by
      intro a
      have := cellSum_mul (cellsSet mems S x data minSize maxDepth N) (fun _ => 1) a
      rw [hone] at this
      simpa using this
    unfold expRf
    constructor
    · refine le_trans (le_of_eq (hconst lo).symm) (cellSum_mono fun c hc i hi => (hb i (hlt c hc i hi)).1)
    · refine le_trans (cellSum_mono fun c hc i hi => (hb i (hlt c hc i hi)).2) (le_of_eq (hconst hi))

/-- **C28 is false of the code** when a cell is empty: all background outputs are 5, the mean is 0 and the CDF at 5 is 0. -/
theorem C28_empty_cell_false :
    TreeIn [0] 3 rootSplit (Mem.ofTree rootSplit leafJunk) ∧
    expRf [Mem.ofTree rootSplit leafJunk] [0] (fun _ => 2) (fun _ _ => 0) (fun _ => 5) 1 1 1 = 0 ∧
    cdfRf [Mem.ofTree rootSplit leafJunk] [0] (fun _ => 2) (fun _ _ => 0) (fun _ => 5) 1 1 1 5 = 0 :=
  ⟨rootSplit_in _, by decide +kernel, by decide +kernel⟩

example : expRf [Mem.ofTree ladderTree leafJunk, Mem.ofTree rootSplit leafJunk] [0, 2] (diag 4) diag (fun i => i) 1 3 10 = 9 / 2 ∧
    (∀ c ∈ cellsVec [Mem.ofTree ladderTree leafJunk, Mem.ofTree rootSplit leafJunk] [0, 2] (diag 4) diag 1 3 10, c ≠ []) :=
  ⟨by decide +kernel, (no_empty_cell ⟨4, by decide, fun _ _ => rfl⟩).2⟩

end Acv
