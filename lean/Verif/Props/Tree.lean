import Verif.Lemmas.Tree

/-!
# C01-C05: trees, leaf rectangles, predictions, depth and node weights
-/

namespace Acv

/-! A concrete well-formed tree used by the examples:
```
0: x0 <= 1 ? 1 : 2        1: leaf 10
2: x1 <= 3 ? 3 : 4        3: leaf 20     4: leaf 30
``` -/
def exTree : TreeArr where
  size := 5
  left := fun n => ([1, -1, 3, -1, -1] : List Int).getD n (-1)
  right := fun n => ([2, -1, 4, -1, -1] : List Int).getD n (-1)
  dflt := fun n => ([2, -1, 3, -1, -1] : List Int).getD n (-1)
  feature := fun n => ([0, -2, 1, -2, -2] : List Int).getD n (-2)
  threshold := fun n => ([1, -2, 3, -2, -2] : List ℚ).getD n (-2)
  value := fun n _ => ([0, 10, 0, 20, 30] : List ℚ).getD n 0
  weight := fun _ => 1

def exBTree : BTree := .node 0 0 1 (.leaf 1) (.node 2 1 3 (.leaf 3) (.leaf 4))

theorem exTree_isTree : IsTree exTree 2 exBTree where
  root := rfl
  enc := by simp [exBTree, Encodes, exTree, BTree.id]
  nodup := by decide
  all := by intro n; simp [exBTree, BTree.ids, exTree]; omega
  vars := by simp [exBTree, BTree.vars]

theorem exTree_wf : WellFormed exTree 2 := ⟨_, exTree_isTree⟩

/-! A single-leaf tree, of another size. -/
def exLeaf : TreeArr where
  size := 1
  left := fun _ => -1
  right := fun _ => -1
  dflt := fun _ => -1
  feature := fun _ => -2
  threshold := fun _ => -2
  value := fun _ _ => 7
  weight := fun _ => 1

theorem exLeaf_wf : WellFormed exLeaf 2 :=
  ⟨.leaf 0, rfl, by simp [Encodes, exLeaf], by decide, by simp [BTree.ids, exLeaf], by simp [BTree.vars]⟩

/-- **C01.** For every well-formed tree and every complete observation, exactly one leaf has a rectangle containing the
observation, and it is the leaf in which the root-to-leaf descent of `predict` ends. -/
theorem C01_leaf_rectangles_partition {t : TreeArr} {d : Nat} (h : WellFormed t d) (x : Nat → ℚ) :
    ∃ ℓ ∈ t.leafIdx, InBox d (t.leafRect ℓ) x ∧ (∀ ℓ' ∈ t.leafIdx, InBox d (t.leafRect ℓ') x → ℓ' = ℓ) ∧
      EndsIn t (full x) ℓ ∧ t.leafOf (full x) = some ℓ := by
  obtain ⟨b, hb⟩ := h
  have hm := b.descend_mem x
  refine ⟨b.descend x, (leafIdx_iff hb _).mpr hm, inBox_iff.mp ((leaf_mem_iff hb x hm).mpr rfl), ?_, ?_, leafOf_full hb x⟩
  · intro ℓ' hℓ' hbox
    exact ((leaf_mem_iff hb x ((leafIdx_iff hb _).mp hℓ')).mp (inBox_iff.mpr hbox)).symm
  · rw [endsIn_iff hb, descendObs_full]

/-- hypotheses are met, and the leaf is the expected one -/
example : WellFormed exTree 2 ∧ exTree.leafIdx = [1, 3, 4] ∧
    exTree.leafOf (full fun j => if j = 0 then 2 else 3) = some 3 ∧
    (exTree.leafRect 3) 0 = ⟨some 1, none⟩ ∧ (exTree.leafRect 3) 1 = ⟨none, some 3⟩ := by
  refine ⟨exTree_wf, by decide, by decide +kernel, by decide +kernel, by decide +kernel⟩

/-- **C02.** The variables recorded for a leaf are exactly those tested at a proper ancestor of the leaf, and two
observations that agree on them are either both in the rectangle of the leaf or both outside. -/
theorem C02_leaf_variables_complete {t : TreeArr} {d : Nat} (h : WellFormed t d) {ℓ : Nat} (hℓ : ℓ ∈ t.leafIdx) :
    (∀ f : Int, f ∈ t.leafVars ℓ ↔ ∃ k p, 0 < k ∧ Above t k p ℓ ∧ t.feature p = f) ∧
    (t.leafVars ℓ).Nodup ∧
    ∀ x y : Nat → ℚ, (∀ j : Nat, (j : Int) ∈ t.leafVars ℓ → x j = y j) →
      (InBox d (t.leafRect ℓ) x ↔ InBox d (t.leafRect ℓ) y) := by
  obtain ⟨b, hb⟩ := h
  have hm := (leafIdx_iff hb _).mp hℓ
  refine ⟨leafVars_iff hb hm, List.nodup_dedup _, ?_⟩
  intro x y hxy
  refine forall₂_congr fun j _ => ?_
  by_cases hj : (j : Int) ∈ t.leafVars ℓ
  · rw [hxy j hj]
  · rw [leafRect_unconstrained hb hm j hj]; simp [Ival.all]

example : 3 ∈ exTree.leafIdx ∧ exTree.leafVars 3 = [1, 0] ∧ exTree.leafVars 1 = [0] := by
  refine ⟨by decide, by decide +kernel, by decide +kernel⟩

/-- **C03, limit.** The number of trees used is the argument when it is between 0 and the number of trees, the model's
default when no argument is given (and it is in range), and all trees otherwise. -/
theorem C03_tree_limit (n : Nat) (dl arg : Option Int) :
    effLimit n dl arg =
      match arg.or dl with
      | none => n
      | some l => if 0 ≤ l ∧ l ≤ n then l.toNat else n := by
  unfold effLimit
  cases arg with
  | some a =>
    simp only [Option.some_or]
    by_cases h : 0 ≤ a ∧ a ≤ (n : Int)
    · rw [if_pos h, if_neg (by omega)]
    · rw [if_neg h, if_pos (by omega)]
  | none =>
    cases dl with
    | none => simp
    | some a =>
      simp only [Option.none_or]
      by_cases h : 0 ≤ a ∧ a ≤ (n : Int)
      · rw [if_pos h, if_neg (by omega)]
      · rw [if_neg h, if_pos (by omega)]

theorem effLimit_le (n : Nat) (dl arg : Option Int) : effLimit n dl arg ≤ n := by
  rw [C03_tree_limit]
  cases arg.or dl with
  | none => exact le_rfl
  | some l => simp only; split <;> omega

/-- **C03.** `predict` on the padded arrays of any list of well-formed trees, for any observation (missing values
allowed), output and limit: it terminates, and it is the base offset plus, for each of the first trees (in number
`effLimit`, characterised by `C03_tree_limit`), the value of the leaf in which the descent through that tree alone ends.
That leaf exists and is unique. -/
theorem C03_predict_is_sum_of_leaf_values {ts : List TreeArr} {d : Nat} (h : ∀ t ∈ ts, WellFormed t d)
    (dl arg : Option Int) (base : Nat → ℚ) (x : Obs) (k : Nat) :
    (∀ t ∈ ts, ∃! ℓ, EndsIn t x ℓ) ∧
    ∀ leaf : TreeArr → Nat, (∀ t ∈ ts, EndsIn t x (leaf t)) →
      ensemblePredict ts dl arg base x k =
        some (base k + ((ts.take (effLimit ts.length dl arg)).map fun t => t.value (leaf t) k).sum) := by
  constructor
  · intro t ht
    obtain ⟨b, hb⟩ := h t ht
    exact ⟨b.descendObs t x, (endsIn_iff hb x _).mpr rfl, fun ℓ hℓ => (endsIn_iff hb x ℓ).mp hℓ⟩
  · intro leaf hleaf
    unfold ensemblePredict Packed.predict
    have hn : (pack ts).numTrees = ts.length := rfl
    rw [hn]
    have hL := effLimit_le ts.length dl arg
    generalize effLimit ts.length dl arg = L at hL
    induction L with
    | zero => simp
    | succ L ih =>
      have hj : L < ts.length := by omega
      rw [List.range_succ, List.foldlM_append, ih (by omega), List.take_succ, List.getElem?_eq_getElem hj]
      obtain ⟨b, hb⟩ := h ts[L] (List.getElem_mem hj)
      have hw := pack_walk hj x b hb.enc (fun n hn => (hb.all n).mp hn) (maxNodes ts) (by
        have := b.height_lt; rw [ids_length hb] at this
        have := size_le_maxNodes (List.getElem_mem hj); omega)
      rw [hb.root] at hw
      have hl : leaf ts[L] = b.descendObs ts[L] x := (endsIn_iff hb x _).mp (hleaf _ (List.getElem_mem hj))
      have hsz : b.descendObs ts[L] x < (ts[L]).size := (hb.all _).mp (b.leaves_sub _ (descendObs_mem x b))
      have hc := pack_cell hj hsz
      have hv : (pack ts).value (L * maxNodes ts + b.descendObs ts[L] x) k = (ts[L]).value (leaf ts[L]) k := by
        rw [hl]; simp [pack, hc.1, hc.2, hj, hsz]
      have hm : (pack ts).maxNodes = maxNodes ts := rfl
      simp only [Option.bind_eq_bind, Option.bind_some, List.foldlM_cons, List.foldlM_nil, hm, hw, Option.map_some, hv,
        Option.toList_some, List.map_append, List.map_cons, List.map_nil, List.sum_append, List.sum_cons, List.sum_nil]
      simp [add_assoc]

/-- trees of different sizes, a missing value, a limit out of range -/
example : (∀ t ∈ [exLeaf, exTree, exLeaf], WellFormed t 2) ∧
    ensemblePredict [exLeaf, exTree, exLeaf] none (some 5) (fun _ => 1) (fun j => if j = 0 then none else some 4) 0
      = some 45 ∧
    ensemblePredict [exLeaf, exTree, exLeaf] none (some 2) (fun _ => 1) (fun j => if j = 0 then some 1 else none) 0
      = some 18 := by
  refine ⟨?_, by decide +kernel, by decide +kernel⟩
  simp [exTree_wf, exLeaf_wf]

/-- **C04.** The depth stored for a well-formed tree is the length of the longest downward path from the root: no node is
deeper, some leaf is exactly that deep, and a descent of that many steps always ends in a leaf. -/
theorem C04_depth_is_height {t : TreeArr} {d : Nat} (h : WellFormed t d) :
    (∀ k n, Above t k 0 n → k ≤ t.maxDepth) ∧ (∃ ℓ ∈ t.leafIdx, Above t t.maxDepth 0 ℓ) ∧
    ∀ x : Obs, ∃ ℓ ∈ t.leafIdx, t.walk x t.maxDepth 0 = some ℓ := by
  obtain ⟨b, hb⟩ := h
  have hlt := b.height_lt
  rw [ids_length hb] at hlt
  have hd : t.maxDepth = b.height := by
    have := depthFrom_eq b hb.enc (t.size + 1) (by omega)
    rwa [hb.root] at this
  obtain ⟨⟨ℓ, h1, h2⟩, h3⟩ := above_height b hb.enc (fun n hn => (hb.all n).mp hn)
  rw [hb.root] at h1 h3
  rw [hd]
  refine ⟨h3, ⟨ℓ, ?_, h1⟩, ?_⟩
  · have hs : ∀ k p n, Above t k p n → p < t.size → n < t.size := by
      intro k p n ha
      induction ha with
      | refl => exact fun h => h
      | @step k p q n hc _ ih =>
        intro _
        apply ih
        rw [← hb.all]
        rcases hc with ⟨hp, hh | hh⟩
        · have := mem_links hb.enc p ((hb.all p).mpr hp) false q (by simpa [TreeArr.child] using hh)
          exact b.ids_perm.mem_iff.mpr (List.mem_cons_of_mem _ (List.mem_map.mpr ⟨_, this, rfl⟩))
        · have := mem_links hb.enc p ((hb.all p).mpr hp) true q (by simpa [TreeArr.child] using hh)
          exact b.ids_perm.mem_iff.mpr (List.mem_cons_of_mem _ (List.mem_map.mpr ⟨_, this, rfl⟩))
    simp only [TreeArr.leafIdx, List.mem_filter, List.mem_range, TreeArr.isLeaf, decide_eq_true_eq]
    exact ⟨hs _ _ _ h1 (by omega), h2⟩
  · intro x
    have := walk_obs x b hb.enc b.height le_rfl
    rw [hb.root] at this
    exact ⟨_, (leafIdx_iff hb _).mpr (descendObs_mem x b), this⟩

example : WellFormed exTree 2 ∧ exTree.maxDepth = 2 := ⟨exTree_wf, by decide +kernel⟩

open Classical in
/-- **C05.** Starting from zero weights, after processing a dataset (missing values allowed) the weight of each node is
the number of rows whose descent passes through it; hence the root holds all rows, an internal node the sum of its
children, and (for complete rows) a leaf the number of rows in its rectangle. -/
theorem C05_weights_count_rows {t : TreeArr} {d : Nat} (h : WellFormed t d) (rows : List Obs) :
    let w := t.updateWeights rows (fun _ => 0)
    (∀ n, w n = ((rows.filter (fun x => Visits t x 0 n)).length : ℚ)) ∧
    w 0 = (rows.length : ℚ) ∧
    (∀ n < t.size, 0 ≤ t.left n → w n = w (t.left n).toNat + w (t.right n).toNat) ∧
    (∀ data : List (Nat → ℚ), rows = data.map full → ∀ ℓ ∈ t.leafIdx,
      w ℓ = ((data.filter (fun z => InBox d (t.leafRect ℓ) z)).length : ℚ)) := by
  obtain ⟨b, hb⟩ := h
  intro w
  have hw : ∀ n, w n = ((rows.filter (fun x => Visits t x 0 n)).length : ℚ) := by
    intro n; have := updateWeights_eq hb rows (fun _ => 0) n; simpa using this
  refine ⟨hw, ?_, ?_, ?_⟩
  · rw [hw, List.filter_eq_self.mpr]
    intro a _; simpa using Visits.refl _
  · intro n hn hl
    rw [hw, hw, hw, ← Nat.cast_add]
    congr 1
    -- for every row: passing n = passing exactly one child
    have key : ∀ x : Obs, (Visits t x 0 n ↔ (Visits t x 0 (t.left n).toNat ∨ Visits t x 0 (t.right n).toNat)) ∧
        ¬ (Visits t x 0 (t.left n).toNat ∧ Visits t x 0 (t.right n).toNat) := by
      intro x
      exact visits_children hb hn hl x
    clear hw
    induction rows with
    | nil => simp
    | cons x rows ih =>
      have := key x
      have ih := ih
      simp only [List.filter_cons]
      by_cases h1 : Visits t x 0 (t.left n).toNat <;> by_cases h2 : Visits t x 0 (t.right n).toNat <;>
        simp_all <;> omega
  · rintro data rfl ℓ hℓ
    rw [hw, List.filter_map, List.length_map]
    congr 2
    have hm := (leafIdx_iff hb _).mp hℓ
    have hll : t.left ℓ < 0 := by
      simp only [TreeArr.leafIdx, List.mem_filter, TreeArr.isLeaf, decide_eq_true_eq] at hℓ; exact hℓ.2
    apply List.filter_congr
    intro z _
    simp only [Function.comp, decide_eq_decide]
    have h1 := endsIn_iff hb (full z) ℓ
    rw [descendObs_full] at h1
    have h2 := leaf_mem_iff hb z hm
    rw [inBox_iff] at h2
    rw [h2, eq_comm, ← h1]
    exact ⟨fun hv => ⟨hv, hll⟩, fun hv => hv.1⟩

example : WellFormed exTree 2 ∧
    let w := exTree.updateWeights
      [full fun _ => 0, full fun _ => 2, full fun _ => 5, fun j => if j = 0 then none else some 9] (fun _ => 0)
    (List.range 5).map w = [4, 1, 3, 1, 2] := ⟨exTree_wf, by decide +kernel⟩

end Acv
