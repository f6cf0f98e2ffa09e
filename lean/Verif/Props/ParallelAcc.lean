import Verif.Model.ParallelAcc
import Verif.Lemmas.LeafShapPy
import Verif.Props.Parallel
import Verif.Props.Sequential

/-! # C13, C90: expectations, same decision probabilities and Active Shapley values -/

namespace Acv

theorem accProg_owner {tab nbLeaf N Q : Nat} {add : Nat → Nat → Option (Nat → ℚ)} {leaf : Nat} {s : Stmt ACell}
    (hs : s ∈ accProg tab nbLeaf N Q add leaf) : s.dst.tab = tab ∧ s.dst.leaf = leaf ∧ s.srcs = [s.dst] := by
  unfold accProg at hs
  split at hs
  · obtain ⟨i, _, h⟩ := List.mem_flatMap.mp hs
    split at h
    · simp at h
    · obtain ⟨q, _, rfl⟩ := List.mem_map.mp h
      exact ⟨rfl, rfl, rfl⟩
  · simp at hs

theorem accProg_raceFree (tab nbLeaf N Q : Nat) (add : Nat → Nat → Option (Nat → ℚ)) : RaceFree (accProg tab nbLeaf N Q add) := by
  intro i j hij s hs s' hs'
  obtain ⟨_, h1, _⟩ := accProg_owner hs
  obtain ⟨_, h2, h3⟩ := accProg_owner hs'
  refine ⟨fun he => hij ?_, fun he => hij ?_⟩
  · rw [← h1, ← h2, he]
  · rw [h3, List.mem_singleton] at he
    rw [← h1, ← h2, he]

theorem accProg_quiet (tab nbLeaf N Q : Nat) (add : Nat → Nat → Option (Nat → ℚ)) (c : ACell) :
    Quiet (accProg tab nbLeaf N Q add) c.leaf c := by
  intro j hj s hs he
  exact hj (by rw [← (accProg_owner hs).2.1, he])

theorem solo_incs {K : Type} (cell : K → ACell) (f : K → ℚ) (c : ACell) : ∀ (l : List K) (mem : ACell → ℚ),
    solo mem (l.map fun k => ⟨cell k, [cell k], fun v => v.headD 0 + f k⟩) c
      = mem c + (l.map fun k => if cell k = c then f k else 0).sum
  | [], mem => by simp [solo]
  | k :: l, mem => by
    show solo (Stmt.exec mem _) (l.map _) c = _
    rw [solo_incs cell f c l, List.map_cons, List.sum_cons, ← add_assoc]
    congr 1
    unfold Stmt.exec setCell
    by_cases h : cell k = c
    · subst h; simp
    · rw [if_neg (fun e => h e.symm), if_neg h, add_zero]

theorem solo_blocksA {K : Type} (prog : K → List (Stmt ACell)) (w : K → ℚ) (c : ACell)
    (h : ∀ k mem, solo mem (prog k) c = mem c + w k) : ∀ (l : List K) (mem : ACell → ℚ),
    solo mem (l.flatMap prog) c = mem c + (l.map w).sum
  | [], mem => by simp [solo]
  | k :: l, mem => by
    rw [List.flatMap_cons, solo_append, solo_blocksA prog w c h l, h, List.map_cons, List.sum_cons, add_assoc]

theorem sum_range_single (n a : Nat) (w : Nat → ℚ) :
    ((List.range n).map fun i => if i = a then w i else 0).sum = if a < n then w a else 0 := by
  by_cases h : a < n
  · rw [if_pos h, ← sum_indicator_range n a (w a) h]
    congr 1
    apply List.map_congr_left
    intro i _
    split
    · rename_i e; rw [e]
    · rfl
  · rw [if_neg h]
    apply List.sum_eq_zero
    intro y hy
    obtain ⟨i, hi, rfl⟩ := List.mem_map.mp hy
    rw [if_neg]
    intro e
    rw [List.mem_range] at hi
    omega

/-- What one tree adds to a cell. -/
def AccTree.delta (N Q : Nat) (t : AccTree) (c : ACell) : ℚ :=
  if c.tab = t.tab ∧ c.leaf < t.nbLeaf ∧ c.row < N ∧ c.q < Q then ((t.add c.leaf c.row).map (· c.q)).getD 0 else 0

theorem solo_acc (t : AccTree) (N Q : Nat) (c : ACell) (mem : ACell → ℚ) :
    solo mem (accProg t.tab t.nbLeaf N Q t.add c.leaf) c = mem c + t.delta N Q c := by
  obtain ⟨tab, leaf, row, q⟩ := c
  unfold accProg AccTree.delta
  simp only
  by_cases hl : leaf < t.nbLeaf
  · rw [if_pos hl]
    rw [solo_blocksA _ (fun i => if i = row then
      (if tab = t.tab ∧ q < Q then ((t.add leaf i).map (· q)).getD 0 else 0) else 0) ⟨tab, leaf, row, q⟩ ?_ (List.range N) mem]
    · rw [sum_range_single]
      congr 1
      by_cases h1 : row < N <;> by_cases h2 : tab = t.tab <;> by_cases h3 : q < Q <;> simp [h1, h2, h3, hl]
    · intro i mem
      rcases ha : t.add leaf i with _ | f
      · simp [solo]
      · simp only [Option.map_some, Option.getD_some]
        rw [solo_incs (fun q => (⟨t.tab, leaf, i, q⟩ : ACell)) f]
        congr 1
        by_cases h1 : i = row
        · by_cases h2 : tab = t.tab
          · subst h1 h2
            simp only [ACell.mk.injEq, true_and, if_true]
            rw [sum_range_single Q q f]
          · rw [if_pos h1, if_neg (fun h => h2 h.1)]
            apply List.sum_eq_zero
            intro y hy
            obtain ⟨p, hp, rfl⟩ := List.mem_map.mp hy
            rw [if_neg]
            intro e
            exact h2 (congrArg ACell.tab e).symm
        · rw [if_neg h1]
          apply List.sum_eq_zero
          intro y hy
          obtain ⟨p, hp, rfl⟩ := List.mem_map.mp hy
          rw [if_neg]
          intro e
          exact h1 (congrArg ACell.row e)
  · rw [if_neg hl, if_neg (fun h => hl h.2.1), add_zero]
    rfl

theorem accTrees_mem (N Q : Nat) (c : ACell) : ∀ (ts : List AccTree) (scheds : List (List Nat)) (mem : ACell → ℚ),
    (∀ cf ∈ (accTrees N Q ts scheds mem).2, cf.finished) →
    (accTrees N Q ts scheds mem).1 c = mem c + (ts.map fun t => t.delta N Q c).sum
  | [], _, mem, _ => by simp [accTrees]
  | t :: ts, scheds, mem, hf => by
    unfold accTrees at hf ⊢
    simp only [List.mem_cons, forall_eq_or_imp] at hf ⊢
    rw [accTrees_mem N Q c ts _ _ hf.2, run_finished (accProg_raceFree _ _ _ _ _) hf.1 (accProg_quiet _ _ _ _ _ c), solo_acc t N Q c,
      List.map_cons, List.sum_cons, add_assoc]

/-- **C13, accumulation loops**: after the parallel loops of all trees, every cell holds the sum of what the trees add to it, however
the iterations were interleaved. -/
theorem C13_accumulation (N Q : Nat) (ts : List AccTree) (scheds : List (List Nat)) (mem : ACell → ℚ)
    (hf : ∀ cf ∈ (accTrees N Q ts scheds mem).2, cf.finished) (tab leaf i q : Nat) :
    (accTrees N Q ts scheds mem).1 ⟨tab, leaf, i, q⟩ = mem ⟨tab, leaf, i, q⟩ +
      (ts.map fun t => if tab = t.tab ∧ leaf < t.nbLeaf ∧ i < N ∧ q < Q then ((t.add leaf i).map (· q)).getD 0 else 0).sum :=
  accTrees_mem N Q ⟨tab, leaf, i, q⟩ ts scheds mem hf

theorem sum_range_getElem {α : Type} (f : α → ℚ) : ∀ (l : List α) (K : Nat), l.length ≤ K →
    ((List.range K).map fun a => ((l[a]?).map f).getD 0).sum = (l.map f).sum
  | [], K, _ => by
    rw [List.map_nil, List.sum_nil]
    apply List.sum_eq_zero
    intro y hy
    obtain ⟨i, hi, rfl⟩ := List.mem_map.mp hy
    simp
  | a :: l, K, h => by
    obtain ⟨K, rfl⟩ : ∃ k, K = k + 1 := ⟨K - 1, by simp at h; omega⟩
    rw [List.range_succ_eq_map, List.map_cons, List.sum_cons, List.map_map, List.map_cons, List.sum_cons]
    simp only [List.getElem?_cons_zero, Option.map_some, Option.getD_some]
    congr 1
    rw [← sum_range_getElem f l K (by simpa using h)]
    rfl

theorem listSum_swap {α β : Type} (f : α → β → ℚ) (l : List α) : ∀ (k : List β),
    (k.map fun b => (l.map fun a => f a b).sum).sum = (l.map fun a => (k.map fun b => f a b).sum).sum
  | [] => by simp
  | b :: k => by
    simp only [List.map_cons, List.sum_cons]
    rw [listSum_swap f l k, ← List.sum_map_add]

/-- What the gathering loop over the leaves collects for one tree. -/
theorem gather_acc {t : TreeArr} {maxLeaves : Nat} (hmax : t.leafIdx.length ≤ maxLeaves) (g : Nat → Option (Nat → ℚ)) (w : Nat → ℚ)
    (q : Nat) (hg : ∀ leaf, ((g leaf).map (· q)).getD 0 = ((t.leafIdx[leaf]?).map w).getD 0) :
    ((List.range maxLeaves).map fun leaf => if leaf < t.leafIdx.length then ((g leaf).map (· q)).getD 0 else 0).sum
      = (t.leafIdx.map w).sum := by
  rw [← sum_range_getElem w t.leafIdx maxLeaves hmax]
  congr 1
  apply List.map_congr_left
  intro leaf _
  split
  · exact hg leaf
  · rename_i h
    rw [List.getElem?_eq_none (by omega)]
    rfl

theorem gather_all {ts : List TreeArr} {maxLeaves : Nat} (hmax : ∀ t ∈ ts, t.leafIdx.length ≤ maxLeaves) {N Q i q : Nat} (hi : i < N)
    (hq : q < Q) (add : TreeArr → Nat → Nat → Option (Nat → ℚ)) (w : TreeArr → Nat → ℚ)
    (hw : ∀ t leaf, ((add t leaf i).map (· q)).getD 0 = ((t.leafIdx[leaf]?).map (w t)).getD 0) {scheds : List (List Nat)}
    (hf : ∀ cf ∈ (accTrees N Q (ts.map fun t => ⟨0, t.leafIdx.length, add t⟩) scheds (fun _ => 0)).2, cf.finished) :
    ((List.range maxLeaves).map fun leaf =>
      (accTrees N Q (ts.map fun t => ⟨0, t.leafIdx.length, add t⟩) scheds (fun _ => 0)).1 ⟨0, leaf, i, q⟩).sum
      = (ts.map fun t => (t.leafIdx.map (w t)).sum).sum := by
  simp only [C13_accumulation N Q _ _ _ hf, List.map_map, zero_add, Function.comp_def, hi, hq, and_true, true_and]
  rw [listSum_swap (fun (t : TreeArr) leaf => if leaf < t.leafIdx.length then ((add t leaf i).map (· q)).getD 0 else 0) ts]
  congr 1
  apply List.map_congr_left
  intro t ht
  exact gather_acc (hmax t ht) _ _ q (hw t)

/-- **C13, `compute_exp`**: whatever the interleavings of the leaf iterations of each tree, the entry of sample `i` and output `k` is
the value of the sequential description. -/
theorem C13_exp (ts : List TreeArr) (m : Nat) (data : List Row) (S : List Nat) (X : List Row) (d maxLeaves : Nat)
    (hmax : ∀ t ∈ ts, t.leafIdx.length ≤ maxLeaves) (scheds : List (List Nat))
    (hf : ∀ c ∈ (expParallel ts m data S X d maxLeaves scheds).2, c.finished) {i k : Nat} (hi : i < X.length) (hk : k < d) :
    (expParallel ts m data S X d maxLeaves scheds).1 i k = expCy ts m data S X[i] k := by
  unfold expParallel at hf ⊢
  simp only at hf ⊢
  rw [gather_all hmax hi hk (fun t => expAdd t m data S X) (fun t ℓ => if satCC (t.leafRect ℓ) S X[i] then
    guardDiv (cntCC data (t.leafRect ℓ) (List.range m) * t.value ℓ k) (cnt data (t.leafRect ℓ) S) else 0) ?_ hf]
  · rfl
  · intro t leaf
    unfold expAdd
    rw [List.getElem?_eq_getElem hi]
    rcases t.leafIdx[leaf]? with _ | ℓ
    · rfl
    · simp only [Option.map_some, Option.getD_some]
      split <;> rfl

/-- **C13, `compute_exp_cat`**. -/
theorem C13_exp_cat (ts : List TreeArr) (m : Nat) (data : List Row) (S : List Nat) (X : List Row) (d maxLeaves : Nat)
    (hmax : ∀ t ∈ ts, t.leafIdx.length ≤ maxLeaves) (scheds : List (List Nat))
    (hf : ∀ c ∈ (expCatParallel ts m data S X d maxLeaves scheds).2, c.finished) {i k : Nat} (hi : i < X.length) (hk : k < d) :
    (expCatParallel ts m data S X d maxLeaves scheds).1 i k = expCatCy ts m data S X[i] k := by
  unfold expCatParallel at hf ⊢
  simp only at hf ⊢
  rw [gather_all hmax hi hk (fun t => expCatAdd t m data S X) (fun t ℓ => if sat (t.leafRect ℓ) S X[i] then
      guardDiv (((data.filter fun z => eqOn S X[i] z && sat (t.leafRect ℓ) (List.range m) z).length : ℚ) * t.value ℓ k)
        (data.filter fun z => eqOn S X[i] z).length else 0) ?_ hf]
  · rfl
  · intro t leaf
    unfold expCatAdd
    rw [List.getElem?_eq_getElem hi]
    rcases t.leafIdx[leaf]? with _ | ℓ
    · rfl
    · simp only [Option.map_some, Option.getD_some]
      split <;> rfl

/-- **C13, `compute_sdp_clf_cat`**, for a set of columns that is neither empty nor full. -/
theorem C13_sdp_clf_cat (ts : List TreeArr) (m : Nat) (lab : Row → Nat) (data : List Row) (S : List Nat) (X : List Row) (maxLeaves : Nat)
    (hmax : ∀ t ∈ ts, t.leafIdx.length ≤ maxLeaves) (scheds : List (List Nat)) (hS : S ≠ []) (hm : S.length ≠ m)
    (hf : ∀ c ∈ (sdpCatParallel ts m lab data S X maxLeaves scheds).2, c.finished) {i : Nat} (hi : i < X.length) :
    (sdpCatParallel ts m lab data S X maxLeaves scheds).1 i = sdpClfCat ts m lab data S X[i] := by
  unfold sdpCatParallel at hf ⊢
  simp only at hf ⊢
  have key : ∀ q, q < 3 → _ := fun q hq => gather_all hmax hi hq (fun t => sdpCatAdd t m lab data S X)
    (fun t ℓ => if satCC (t.leafRect ℓ) S X[i] then
      guardDiv (cntCC (sdpRows lab (data.filter (eqOn S X[i])) X[i] q) (t.leafRect ℓ) (List.range m) * t.value ℓ (lab X[i]))
        (sdpRows lab (data.filter (eqOn S X[i])) X[i] q).length else 0) (by
      intro t leaf
      unfold sdpCatAdd
      rw [List.getElem?_eq_getElem hi]
      rcases t.leafIdx[leaf]? with _ | ℓ
      · rfl
      · simp only [Option.map_some, Option.getD_some]
        split <;> rfl) hf
  rw [key 0 (by omega), key 1 (by omega), key 2 (by omega)]
  unfold sdpClfCat
  rw [if_neg hm, if_neg hS]
  rfl

theorem zipIdx_delta {ts : List TreeArr} {N Q : Nat} (add : TreeArr → Nat → Nat → Option (Nat → ℚ)) (c : ACell) {t : TreeArr} :
    ∀ (ts : List TreeArr) (n : Nat), (t, c.tab) ∈ ts.zipIdx n →
      ((ts.zipIdx n).map fun tb => (⟨tb.2, tb.1.leafIdx.length, add tb.1⟩ : AccTree).delta N Q c).sum
        = (⟨c.tab, t.leafIdx.length, add t⟩ : AccTree).delta N Q c
  | [], n, h => by simp at h
  | t' :: ts, n, h => by
    rw [List.zipIdx_cons, List.map_cons, List.sum_cons]
    rw [List.zipIdx_cons, List.mem_cons] at h
    rcases h with h | h
    · obtain ⟨h1, h2⟩ := Prod.mk.inj h
      subst h1
      rw [← h2]
      have : ((ts.zipIdx (c.tab + 1)).map fun tb => (⟨tb.2, tb.1.leafIdx.length, add tb.1⟩ : AccTree).delta N Q c).sum = 0 := by
        apply List.sum_eq_zero
        intro y hy
        obtain ⟨tb, htb, rfl⟩ := List.mem_map.mp hy
        have := List.le_snd_of_mem_zipIdx htb
        unfold AccTree.delta
        rw [if_neg]
        rintro ⟨e, -⟩
        simp only at e
        omega
      rw [this, add_zero]
    · have hle := List.le_snd_of_mem_zipIdx h
      rw [zipIdx_delta (ts := ts) add c ts (n + 1) h]
      have : (⟨n, t'.leafIdx.length, add t'⟩ : AccTree).delta N Q c = 0 := by
        unfold AccTree.delta
        rw [if_neg]
        rintro ⟨e, -⟩
        simp only at e hle
        omega
      rw [this, zero_add]

/-- One of the three means of one tree. -/
def sdpTreeMean (m : Nat) (lab : Row → Nat) (data : List Row) (S : List Nat) (x : Row) (q : Nat) (t : TreeArr) : ℚ :=
  let rows := sdpRows lab data x q
  let n := (t.leafIdx.map fun ℓ =>
    if satCC (t.leafRect ℓ) S x then
      guardDiv (cntCC rows (t.leafRect ℓ) (List.range m)) (cntCC rows (t.leafRect ℓ) S) else 0).sum
  (t.leafIdx.map fun ℓ => guardDiv
    (if satCC (t.leafRect ℓ) S x then
      guardDiv (cntCC rows (t.leafRect ℓ) (List.range m) * t.value ℓ (lab x)) (cntCC rows (t.leafRect ℓ) S) else 0) n).sum

/-- **C13, `compute_sdp_clf`**, for a set of columns that is neither empty nor full. -/
theorem C13_sdp_clf (ts : List TreeArr) (m : Nat) (lab : Row → Nat) (data : List Row) (S : List Nat) (X : List Row) (maxLeaves : Nat)
    (hmax : ∀ t ∈ ts, t.leafIdx.length ≤ maxLeaves) (scheds : List (List Nat)) (hS : S ≠ []) (hm : S.length ≠ m)
    (hf : ∀ c ∈ (sdpClfParallel ts m lab data S X maxLeaves scheds).2, c.finished) {i : Nat} (hi : i < X.length) :
    (sdpClfParallel ts m lab data S X maxLeaves scheds).1 i = sdpClfCy ts m lab data S X[i] := by
  unfold sdpClfParallel at hf ⊢
  simp only at hf ⊢
  have hcell : ∀ tb ∈ ts.zipIdx, ∀ leaf q, q < 6 →
      (accTrees X.length 6 (ts.zipIdx.map fun tb => ⟨tb.2, tb.1.leafIdx.length, sdpClfAdd tb.1 m lab data S X⟩) scheds
        (fun _ => 0)).1 ⟨tb.2, leaf, i, q⟩
      = if leaf < tb.1.leafIdx.length then ((sdpClfAdd tb.1 m lab data S X leaf i).map (· q)).getD 0 else 0 := by
    intro tb htb leaf q hq
    rw [accTrees_mem _ _ _ _ _ _ hf, zero_add, List.map_map]
    have := zipIdx_delta (ts := ts) (N := X.length) (Q := 6) (fun t => sdpClfAdd t m lab data S X) ⟨tb.2, leaf, i, q⟩
      (t := tb.1) ts 0 htb
    simp only [Function.comp_def]
    rw [this]
    unfold AccTree.delta
    simp [hi, hq]
  have hadd : ∀ (t : TreeArr) q leaf, ((sdpClfAdd t m lab data S X leaf i).map (· q)).getD 0
      = ((t.leafIdx[leaf]?).map fun ℓ => if satCC (t.leafRect ℓ) S X[i] then
          guardDiv (cntCC (sdpRows lab data X[i] (q % 3)) (t.leafRect ℓ) (List.range m) *
            (if q < 3 then t.value ℓ (lab X[i]) else 1)) (cntCC (sdpRows lab data X[i] (q % 3)) (t.leafRect ℓ) S) else 0).getD 0 := by
    intro t q leaf
    unfold sdpClfAdd
    rw [List.getElem?_eq_getElem hi]
    rcases t.leafIdx[leaf]? with _ | ℓ
    · rfl
    · simp only [Option.map_some, Option.getD_some]
      split <;> rfl
  have htree : ∀ q, q < 3 → ∀ tb ∈ ts.zipIdx,
      ((List.range maxLeaves).map fun leaf => guardDiv
        ((accTrees X.length 6 (ts.zipIdx.map fun tb => ⟨tb.2, tb.1.leafIdx.length, sdpClfAdd tb.1 m lab data S X⟩) scheds
          (fun _ => 0)).1 ⟨tb.2, leaf, i, q⟩)
        ((List.range tb.1.leafIdx.length).map fun leaf =>
          (accTrees X.length 6 (ts.zipIdx.map fun tb => ⟨tb.2, tb.1.leafIdx.length, sdpClfAdd tb.1 m lab data S X⟩) scheds
            (fun _ => 0)).1 ⟨tb.2, leaf, i, q + 3⟩).sum).sum
      = sdpTreeMean m lab data S X[i] q tb.1 := by
    intro q hq tb htb
    unfold sdpTreeMean
    have hn := gather_acc (t := tb.1) (le_refl _) (fun leaf => sdpClfAdd tb.1 m lab data S X leaf i) _ (q + 3) (hadd tb.1 (q + 3))
    simp only
    simp only [hcell tb htb _ q (by omega), hcell tb htb _ (q + 3) (by omega)]
    rw [hn]
    have e3 : (q + 3) % 3 = q := by omega
    have e0 : q % 3 = q := by omega
    simp only [e3, if_neg (show ¬ q + 3 < 3 by omega), mul_one]
    set n := (tb.1.leafIdx.map fun ℓ => if satCC (tb.1.leafRect ℓ) S X[i] then
      guardDiv (cntCC (sdpRows lab data X[i] q) (tb.1.leafRect ℓ) (List.range m) : ℚ)
        (cntCC (sdpRows lab data X[i] q) (tb.1.leafRect ℓ) S) else 0).sum
    rw [← sum_range_getElem _ tb.1.leafIdx maxLeaves (hmax tb.1 (by
      have := List.mem_zipIdx htb; rw [this.2.2]; exact List.getElem_mem _))]
    congr 1
    apply List.map_congr_left
    intro leaf _
    rw [hadd, e0]
    simp only [if_pos hq]
    split
    · rename_i hlt
      rw [List.getElem?_eq_getElem hlt]
      rfl
    · rename_i hlt
      rw [List.getElem?_eq_none (by omega)]
      simp [guardDiv]
  have hmean : ∀ q, q < 3 → _ := fun q hq => congrArg List.sum (List.map_congr_left (htree q hq))
  have hz : ∀ f : TreeArr → ℚ, (ts.zipIdx.map fun tb => f tb.1) = ts.map f := by
    intro f
    rw [show (fun tb : TreeArr × Nat => f tb.1) = f ∘ Prod.fst from rfl, ← List.map_map, List.zipIdx_map_fst]
  rw [hmean 0 (by omega), hmean 1 (by omega), hmean 2 (by omega), hz, hz, hz]
  unfold sdpClfCy
  rw [if_neg hm, if_neg hS]
  rfl

/-- A round-robin interleaving of the leaves of two trees, and the value at the second sample. -/
example : (expParallel [exTree, stump] 3 exData [0] [fun _ => 1, fun _ => 2] 1 3
      [(List.range 60).map (· % 3), (List.range 60).map (· % 3)]).1 1 0 = expCy [exTree, stump] 3 exData [0] (fun _ => 2) 0 ∧
    expCy [exTree, stump] 3 exData [0] (fun _ => 2) 0 ≠ 0 := by
  constructor <;> decide +kernel

/-! ## Active Shapley values without parallelism -/

/-- `a + b` where `none` is NaN. -/
def oadd (a b : Option ℚ) : Option ℚ := a.bind fun u => b.map (u + ·)

/-- `f` adds to every cell `(i, j)` the increments `w i j`, in this order. -/
def AddsO (f : (Nat → Nat → Option ℚ) → Nat → Nat → Option ℚ) (w : Nat → Nat → List (Option ℚ)) : Prop :=
  ∀ phi i j, f phi i j = (w i j).foldl oadd (phi i j)

theorem addsO_fold {α : Type} {f : (Nat → Nat → Option ℚ) → α → Nat → Nat → Option ℚ} {w : α → Nat → Nat → List (Option ℚ)} :
    ∀ (l : List α), (∀ a ∈ l, AddsO (fun phi => f phi a) (w a)) →
      AddsO (fun phi => l.foldl f phi) fun i j => l.flatMap fun a => w a i j
  | [], _ => fun phi i j => rfl
  | a :: l, h => fun phi i j => by
    have ih := addsO_fold l (fun b hb => h b (by simp [hb])) (f phi a) i j
    have ha := h a (by simp) phi i j
    simp only at ih ha ⊢
    rw [List.foldl_cons, ih, ha, List.flatMap_cons, List.foldl_append]

theorem addsO_cell (i0 j0 : Nat) (v : Option ℚ) :
    AddsO (fun phi => addCellO phi i0 j0 v) fun i j => if i = i0 ∧ j = j0 then [v] else [] := by
  intro phi i j
  simp only [addCellO]
  split <;> rfl

theorem flatMap_zipIdx_single {α β : Type} (f : α → List β) (i : Nat) : ∀ (X : List α) (n : Nat),
    ((X.zipIdx n).flatMap fun xi => if i = xi.2 then f xi.1 else []) = if n ≤ i then ((X[i - n]?).map f).getD [] else []
  | [], n => by simp
  | x :: X, n => by
    rw [List.zipIdx_cons, List.flatMap_cons, flatMap_zipIdx_single f i X (n + 1)]
    by_cases h : i = n
    · subst h; simp
    · by_cases h2 : n ≤ i
      · have e : i - n = (i - (n + 1)) + 1 := by omega
        rw [if_neg h, if_pos (by omega), if_pos h2, e, List.getElem?_cons_succ, List.nil_append]
      · rw [if_neg h, if_neg (by omega), if_neg h2, List.nil_append]

theorem addsO_rows (X : List Row) (va : List Nat) (term : Row → Option ℚ) {i : Nat} (hi : i < X.length)
    (phi : Nat → Nat → Option ℚ) (j : Nat) :
    seqRowsO X va term phi i j = (cellWrites (va.map fun j => (j, term X[i])) j).foldl oadd (phi i j) := by
  have h := addsO_fold (f := fun phi (xi : Row × Nat) => va.foldl (fun phi j => addCellO phi xi.2 j (term xi.1)) phi)
    (w := fun xi i j => va.flatMap fun j0 => if i = xi.2 ∧ j = j0 then [term xi.1] else []) X.zipIdx
    (fun xi _ => addsO_fold va fun j0 _ => addsO_cell xi.2 j0 _) phi i j
  simp only at h
  unfold seqRowsO
  rw [h]
  clear h
  congr 1
  have e : ∀ xi : Row × Nat, (va.flatMap fun j0 => if i = xi.2 ∧ j = j0 then [term xi.1] else [])
      = if i = xi.2 then cellWrites (va.map fun j => (j, term xi.1)) j else [] := by
    intro xi
    by_cases hi : i = xi.2
    · simp only [hi, true_and, if_true]
      unfold cellWrites
      induction va with
      | nil => rfl
      | cons a va ih =>
        rw [List.flatMap_cons, List.map_cons, List.filter_cons]
        by_cases h : j = a
        · subst h; simp [ih]
        · have h' : ¬ a = j := fun e => h e.symm
          simp [h, h', ih]
    · simp [hi]
  simp only [e]
  rw [flatMap_zipIdx_single (fun x => cellWrites (va.map fun j => (j, term x)) j) i X 0]
  simp [List.getElem?_eq_getElem hi]

theorem foldl_cell {α : Type} {i j : Nat} {f : (Nat → Nat → Option ℚ) → α → Nat → Nat → Option ℚ} {w : α → List (Option ℚ)} :
    ∀ (l : List α), (∀ a ∈ l, ∀ phi, f phi a i j = (w a).foldl oadd (phi i j)) → ∀ phi,
      l.foldl f phi i j = (l.flatMap w).foldl oadd (phi i j)
  | [], _, phi => rfl
  | a :: l, h, phi => by
    rw [List.foldl_cons, foldl_cell l (fun b hb => h b (by simp [hb])), h a (by simp), List.flatMap_cons, List.foldl_append]

theorem activeSeqLeaf_cell (m : Nat) (data : List Row) (C : List (List Nat)) (S N : List Nat) (X : List Row) (r : Rect)
    (vars : List Nat) (v : ℚ) {i : Nat} (hi : i < X.length) (phi : Nat → Nat → Option ℚ) (j : Nat) :
    activeSeqLeaf m data C S N X r vars v phi i j
      = (cellWrites (activeLeafWrites m data C S N r vars X[i] v) j).foldl oadd (phi i j) := by
  unfold activeSeqLeaf activeLeafWrites
  rw [cellWrites_flatMap]
  refine foldl_cell _ (fun va _ phi => ?_) phi
  split
  · rw [cellWrites_flatMap]
    exact foldl_cell _ (fun counter _ phi => addsO_rows X va _ hi phi j) phi
  · exact addsO_rows X va _ hi phi j

/-- **C90**: the Active Shapley values without parallelism are those of the parallel function, for every sample of the batch, column
and output, NaN included. -/
theorem C90_active_nopa (ts : List TreeArr) (m : Nat) (data : List Row) (C : List (List Nat)) (S N : List Nat) (X : List Row) (k j : Nat)
    {i : Nat} (hi : i < X.length) : activeSeq ts m data C S N X k i j = activeCy ts m data C S N X[i] j k := by
  unfold activeSeq activeCy
  congr 1
  rw [cellWrites_flatMap]
  rw [foldl_cell (w := fun t : TreeArr => cellWrites (t.leafIdx.flatMap fun ℓ =>
    activeLeafWrites m data C S N (t.leafRect ℓ) (t.leafCols ℓ) X[i] (t.value ℓ k)) j) ts (fun t _ phi => by
      rw [cellWrites_flatMap]
      exact foldl_cell _ (fun ℓ _ phi => activeSeqLeaf_cell m data C S N X (t.leafRect ℓ) (t.leafCols ℓ) (t.value ℓ k) hi phi j) phi)]
  unfold osum
  congr 1
  funext a b
  cases a <;> cases b <;> rfl

example : activeSeq [exTree] 3 exData [[]] [2, 0] [1] [fun _ => 1, fun _ => 2] 0 1 0 = some (65 / 12) ∧
    activeSeq [exTree] 3 [fun _ => 0] [[]] [2, 0] [1] [fun _ => 1, fun _ => 2] 0 1 0 = none := by
  constructor <;> decide +kernel

end Acv
