import Verif.Model.CMemory
import Verif.Lemmas.Tree
import Mathlib.Algebra.BigOperators.Intervals

/-! # Lemmas on the prediction on memory -/

namespace Acv

open Finset in
theorem sum_range_list (L : Nat) (f : Nat → ℚ) : ((List.range L).map f).sum = ∑ j ∈ range L, f j := by
  induction L with
  | zero => simp
  | succ L ih => rw [List.range_succ, List.map_append, List.sum_append, ih, Finset.sum_range_succ]; simp

theorem u32_of_lt {n : Nat} (h : n < 4294967296) : u32 n = n := Nat.mod_eq_of_lt h

theorem u32i_nat {n : Nat} (h : n < 4294967296) : u32i (n : Int) = n := by unfold u32i; omega

theorem read_of_lt {α : Type} {a : CArr α} {i : Nat} (h : i < a.len) : a.read i = some (a.get i) := if_pos h

theorem cAddRow_ok (src : CArr ℚ) (so ro : Nat) (out : CArr ℚ) : ∀ K, so + K ≤ src.len → ro + K ≤ out.len →
    ∃ o, cAddRow K src so ro out = some o ∧ o.len = out.len ∧
      ∀ p, o.get p = out.get p + if ro ≤ p ∧ p < ro + K then src.get (so + (p - ro)) else 0
  | 0, _, _ => ⟨out, by simp [cAddRow], rfl, fun p => by rw [if_neg (by omega), add_zero]⟩
  | K + 1, h1, h2 => by
    obtain ⟨o, e, hl, hg⟩ := cAddRow_ok src so ro out K (by omega) (by omega)
    refine ⟨⟨o.len, fun p => if p = ro + K then o.get p + src.get (so + K) else o.get p⟩, ?_, hl, fun p => ?_⟩
    · unfold cAddRow at e ⊢
      rw [List.range_succ, List.foldlM_append, e]
      simp only [Option.bind_eq_bind, Option.bind_some, List.foldlM_cons, List.foldlM_nil, Option.pure_def]
      rw [read_of_lt (by omega)]
      simp only [Option.bind_some, CArr.addAt]
      rw [if_pos (by omega)]; rfl
    · simp only [hg]
      by_cases hp : p = ro + K
      · subst hp; rw [if_pos rfl, if_neg (by omega), if_pos (by omega), Nat.add_sub_cancel_left, add_zero]
      · rw [if_neg hp]
        by_cases h3 : ro ≤ p ∧ p < ro + K
        · rw [if_pos h3, if_pos (by omega)]
        · rw [if_neg h3, if_neg (by omega)]

open Finset in
theorem cTrees_ok (t : CTrees) (walk : Nat → Option Nat) (off : Nat → Nat) (ro : Nat) (out : CArr ℚ)
    (hr : ro + t.numOutputs ≤ out.len) : ∀ L, (∀ j < L, walk j = some (off j) ∧ off j + t.numOutputs ≤ t.value.len) →
    ∃ o, (List.range L).foldlM (fun out j => do
        let leaf ← walk j
        cAddRow t.numOutputs t.value leaf ro out) out = some o ∧ o.len = out.len ∧
      ∀ p, o.get p = out.get p + if ro ≤ p ∧ p < ro + t.numOutputs then ∑ j ∈ range L, t.value.get (off j + (p - ro)) else 0
  | 0, _ => ⟨out, by simp, rfl, fun p => by simp⟩
  | L + 1, h => by
    obtain ⟨o, e, hl, hg⟩ := cTrees_ok t walk off ro out hr L fun j hj => h j (by omega)
    obtain ⟨o', e', hl', hg'⟩ := cAddRow_ok t.value (off L) ro o t.numOutputs (h L (by omega)).2 (by omega)
    refine ⟨o', ?_, by omega, fun p => ?_⟩
    · rw [List.range_succ, List.foldlM_append, e]
      simp [(h L (by omega)).1, e']
    · rw [hg', hg, sum_range_succ]
      split <;> ring

open Finset in
/-- One row: the cells of the row receive the offset and one value per tree, the others nothing. -/
theorem cDenseRow_ok (t : CTrees) (d : CData) (fuel i : Nat) (off : Nat → Nat) (out : CArr ℚ)
    (hr : i * t.numOutputs + t.numOutputs ≤ out.len) (hb : t.numOutputs ≤ t.base.len)
    (h : ∀ j < t.treeLimit, cTreePredict t d (i * d.M) fuel j = some (off j) ∧ off j + t.numOutputs ≤ t.value.len) :
    ∃ o, cDenseRow t d fuel i out = some o ∧ o.len = out.len ∧
      ∀ p, o.get p = out.get p + if i * t.numOutputs ≤ p ∧ p < i * t.numOutputs + t.numOutputs then
        t.base.get (p - i * t.numOutputs) + ∑ j ∈ range t.treeLimit, t.value.get (off j + (p - i * t.numOutputs)) else 0 := by
  obtain ⟨o, e, hl, hg⟩ := cAddRow_ok t.base 0 (i * t.numOutputs) out t.numOutputs (by omega) hr
  obtain ⟨o', e', hl', hg'⟩ := cTrees_ok t (cTreePredict t d (i * d.M) fuel) off (i * t.numOutputs) o (by omega) t.treeLimit h
  refine ⟨o', ?_, by omega, fun p => ?_⟩
  · unfold cDenseRow; rw [e]; exact e'
  · rw [hg', hg, Nat.zero_add]
    split <;> ring

theorem row_cell {K i i' k : Nat} (hk : k < K) : (i' * K ≤ i * K + k ∧ i * K + k < i' * K + K) ↔ i' = i := by
  constructor
  · rintro ⟨h1, h2⟩
    rcases Nat.lt_trichotomy i' i with h | h | h
    · have : (i' + 1) * K ≤ i * K := Nat.mul_le_mul_right K h
      rw [Nat.succ_mul] at this; omega
    · exact h
    · have : (i + 1) * K ≤ i' * K := Nat.mul_le_mul_right K h
      rw [Nat.succ_mul] at this; omega
  · rintro rfl; omega

/-- Rows one after the other: each cell of the output receives the amount of its own row only. -/
theorem cRows_ok (K : Nat) (row : Nat → CArr ℚ → Option (CArr ℚ)) (amount : Nat → Nat → ℚ) (out : CArr ℚ) : ∀ N,
    (∀ i < N, ∀ o : CArr ℚ, o.len = out.len → ∃ o', row i o = some o' ∧ o'.len = o.len ∧
      ∀ p, o'.get p = o.get p + if i * K ≤ p ∧ p < i * K + K then amount i (p - i * K) else 0) →
    ∃ o, (List.range N).foldlM (fun o i => row i o) out = some o ∧ o.len = out.len ∧
      ∀ i k, k < K → o.get (i * K + k) = out.get (i * K + k) + if i < N then amount i k else 0
  | 0, _ => ⟨out, by simp, rfl, fun i k _ => by simp⟩
  | N + 1, h => by
    obtain ⟨o, e, hl, hg⟩ := cRows_ok K row amount out N fun i hi => h i (by omega)
    obtain ⟨o', e', hl', hg'⟩ := h N (by omega) o hl
    refine ⟨o', ?_, by omega, fun i k hk => ?_⟩
    · rw [List.range_succ, List.foldlM_append, e]; simp [e']
    · rw [hg', hg i k hk]
      by_cases hi : i = N
      · subst hi; rw [if_pos ((row_cell hk).mpr rfl), if_neg (by omega), if_pos (by omega), Nat.add_sub_cancel_left]; ring
      · rw [if_neg (fun hc => hi ((row_cell hk).mp hc).symm)]
        by_cases h2 : i < N
        · rw [if_pos h2, if_pos (by omega), add_zero]
        · rw [if_neg h2, if_neg (by omega), add_zero]

open Finset in
theorem cDense_ok (t : CTrees) (d : CData) (fuel : Nat) (off : Nat → Nat → Nat) (out : CArr ℚ)
    (hr : out.len = d.numX * t.numOutputs) (hb : t.numOutputs ≤ t.base.len)
    (h : ∀ i < d.numX, ∀ j < t.treeLimit, cTreePredict t d (i * d.M) fuel j = some (off i j) ∧ off i j + t.numOutputs ≤ t.value.len) :
    ∃ o, cDense t d fuel out = some o ∧ o.len = d.numX * t.numOutputs ∧
      ∀ i < d.numX, ∀ k < t.numOutputs, o.get (i * t.numOutputs + k) =
        out.get (i * t.numOutputs + k) + (t.base.get k + ∑ j ∈ range t.treeLimit, t.value.get (off i j + k)) := by
  obtain ⟨o, e, hl, hg⟩ := cRows_ok t.numOutputs (fun i o => cDenseRow t d fuel i o)
    (fun i k => t.base.get k + ∑ j ∈ range t.treeLimit, t.value.get (off i j + k)) out d.numX (fun i hi o ho => by
      refine cDenseRow_ok t d fuel i (off i) o ?_ hb (h i hi)
      have : (i + 1) * t.numOutputs ≤ d.numX * t.numOutputs := Nat.mul_le_mul_right _ hi
      rw [Nat.succ_mul] at this; omega)
  exact ⟨o, e, by omega, fun i hi k hk => by rw [hg i k hk, if_pos hi]⟩

theorem cSingle_ok (t : CTrees) (d : CData) (fuel j : Nat) (off : Nat → Nat) (out : CArr ℚ)
    (hr : out.len = d.numX * t.numOutputs) (hb : t.numOutputs ≤ t.base.len)
    (h : ∀ i < d.numX, cTreePredict t d (i * d.M) fuel j = some (off i) ∧ off i + t.numOutputs ≤ t.value.len) :
    ∃ o, cSingle t d fuel j out = some o ∧ o.len = d.numX * t.numOutputs ∧
      ∀ i < d.numX, ∀ k < t.numOutputs, o.get (i * t.numOutputs + k) =
        out.get (i * t.numOutputs + k) + (t.base.get k + t.value.get (off i + k)) := by
  obtain ⟨o, e, hl, hg⟩ := cRows_ok t.numOutputs (fun i out => do
      let out ← cAddRow t.numOutputs t.base 0 (i * t.numOutputs) out
      let leaf ← cTreePredict t d (i * d.M) fuel j
      cAddRow t.numOutputs t.value leaf (i * t.numOutputs) out)
    (fun i k => t.base.get k + t.value.get (off i + k)) out d.numX (fun i hi o ho => by
      have : (i + 1) * t.numOutputs ≤ d.numX * t.numOutputs := Nat.mul_le_mul_right _ hi
      rw [Nat.succ_mul] at this
      obtain ⟨o1, e1, hl1, hg1⟩ := cAddRow_ok t.base 0 (i * t.numOutputs) o t.numOutputs (by omega) (by omega)
      obtain ⟨o2, e2, hl2, hg2⟩ := cAddRow_ok t.value (off i) (i * t.numOutputs) o1 t.numOutputs (h i hi).2 (by omega)
      refine ⟨o2, by simp [e1, (h i hi).1, e2], by omega, fun p => ?_⟩
      rw [hg2, hg1, Nat.zero_add]
      split <;> ring)
  exact ⟨o, e, by omega, fun i hi k hk => by rw [hg i k hk, if_pos hi]⟩

/-- A descent in flat arrays that hold the tree `a` from the cell `o` on, when the cells of the tested variables of the data hold the
observation `z`. -/
theorem cWalk_ok {t : CTrees} {d : CData} {xo o n : Nat} {a : TreeArr} {z : Obs} (ho : o + n ≤ 4294967296)
    (hcell : ∀ p < n, o + p < t.feature.len ∧ o + p < t.left.len ∧ o + p < t.right.len ∧ o + p < t.dflt.len ∧ o + p < t.threshold.len ∧
      t.feature.get (o + p) = a.feature p ∧ t.left.get (o + p) = a.left p ∧ t.right.get (o + p) = a.right p ∧
      t.dflt.get (o + p) = a.dflt p ∧ t.threshold.get (o + p) = a.threshold p) :
    ∀ s : BTree, Encodes a s → (∀ p ∈ s.ids, p < n) →
    (∀ f ∈ s.vars, f < 4294967296 ∧ xo + f < d.missing.len ∧ xo + f < d.X.len ∧ d.missing.get (xo + f) = (z f).isNone ∧
      ∀ v, z f = some v → d.X.get (xo + f) = v) →
    ∀ fuel, s.height < fuel → cWalk t d xo o fuel s.id = some (u32 ((o + s.descendObs a z) * t.numOutputs))
  | .leaf i, h, hs, _, fuel, hf => by
    obtain ⟨fuel, rfl⟩ : ∃ k, fuel = k + 1 := ⟨fuel - 1, by omega⟩
    have hi : i < n := hs i (by simp [BTree.ids])
    obtain ⟨c1, c2, c3, c4, c5, g1, g2, g3, g4, g5⟩ := hcell i hi
    simp only [cWalk, BTree.id_leaf, BTree.descendObs]
    rw [u32_of_lt (n := o + i) (by omega), read_of_lt c1, read_of_lt c2, g2]
    simp [h.1]
  | .node i f thr l r, h, hs, hx, fuel, hf => by
    obtain ⟨fuel, rfl⟩ : ∃ k, fuel = k + 1 := ⟨fuel - 1, by omega⟩
    have hi : i < n := hs i (by simp [BTree.ids])
    obtain ⟨c1, c2, c3, c4, c5, g1, g2, g3, g4, g5⟩ := hcell i hi
    obtain ⟨hf1, hf2, hf3, hf4, hf5⟩ := hx f (by simp [BTree.vars])
    simp only [BTree.height] at hf
    obtain ⟨h1, h2, h3, h4, h5, h6, h7⟩ := h
    have hli : l.id < n := hs _ (by simp [BTree.ids, BTree.id_mem_ids])
    have hri : r.id < n := hs _ (by simp [BTree.ids, BTree.id_mem_ids])
    have ihl := cWalk_ok ho hcell l h6 (fun p hp => hs p (by simp [BTree.ids, hp])) (fun f hf => hx f (by simp [BTree.vars, hf])) fuel
      (by omega)
    have ihr := cWalk_ok ho hcell r h7 (fun p hp => hs p (by simp [BTree.ids, hp])) (fun f hf => hx f (by simp [BTree.vars, hf])) fuel
      (by omega)
    simp only [cWalk, BTree.id_node, descendObs_node]
    rw [u32_of_lt (n := o + i) (by omega), read_of_lt c1, read_of_lt c2, read_of_lt c3, read_of_lt c4, read_of_lt c5, g1, g2, g3, g4, g5,
      h1, h2, h4, h5]
    simp only [Option.bind_eq_bind, Option.bind_some]
    rw [u32i_nat hf1, u32i_nat (n := l.id) (by omega), u32i_nat (n := r.id) (by omega), read_of_lt hf2, read_of_lt hf3, hf4]
    simp only [Option.bind_some]
    rw [if_neg (by simp)]
    cases hz : z f with
    | none =>
      simp only [Option.isNone_none, if_true]
      by_cases hd : a.dflt i = l.id
      · rw [hd, u32i_nat (n := l.id) (by omega), if_pos rfl, ihl]
      · have hd' : a.dflt i = r.id := by rcases h3 with h | h <;> rw [h] <;> first | exact h2 | exact absurd (h.trans h1) hd
        rw [hd', u32i_nat (n := r.id) (by omega), if_neg (by rw [← hd']; exact hd), ihr]
    | some v =>
      rw [hf5 v hz]
      simp only [Option.isNone_some, Bool.false_eq_true, if_false]
      by_cases hv : v ≤ thr
      · rw [if_pos hv, if_pos hv, ihl]
      · rw [if_neg hv, if_neg hv, ihr]

end Acv
