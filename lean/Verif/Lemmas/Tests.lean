import Verif.Spec.Tests
import Verif.Lemmas.Unused
import Verif.Lemmas.Numbering

/-! # Lemmas for rows that a model cannot tell apart (C121) -/

namespace Acv

/-- The bounds of the rectangle are thresholds of the model. -/
def RectTests (ts : List TreeArr) (r : Rect) : Prop :=
  ∀ f v, ((r f).lo = some v → IsTest ts f v) ∧ ((r f).hi = some v → IsTest ts f v)

theorem encodes_left {t : TreeArr} : ∀ {b : BTree}, Encodes t b → ∀ n ∈ b.ids, 0 ≤ t.right n → 0 ≤ t.left n
  | .leaf i, h, n, hn, hl => by
    simp only [BTree.ids, List.mem_singleton] at hn
    subst hn
    exact absurd hl (not_le.2 h.2)
  | .node i f thr l r, h, n, hn, hl => by
    obtain ⟨h1, _, _, _, _, h6, h7⟩ := h
    simp only [BTree.ids, List.mem_cons, List.mem_append] at hn
    rcases hn with rfl | hn | hn
    · rw [h1]; exact Int.natCast_nonneg _
    · exact encodes_left h6 n hn hl
    · exact encodes_left h7 n hn hl

theorem getPartition_tests {ts : List TreeArr} {t : TreeArr} (ht : t ∈ ts) {m : Nat} (hw : WellFormed t m) : ∀ (fuel id : Nat) (part : Rect)
    (ids : List Int), RectTests ts part → RectTests ts (t.getPartition fuel id part ids).1
  | 0, _, _, _, h => h
  | fuel + 1, id, part, ids, h => by
    obtain ⟨b, hb⟩ := hw
    have hsome : ∀ {child : Nat → Int} {r : Nat}, t.firstParent child id = some r → r < t.size ∧ child r = (id : Int) := by
      intro child r hr
      have h1 := List.mem_of_find?_eq_some hr
      have h2 := List.find?_some hr
      exact ⟨List.mem_range.1 h1, by simpa using h2⟩
    have htest : ∀ r < t.size, 0 ≤ t.left r → IsTest ts (t.feature r).toNat (t.threshold r) := by
      intro r hr hl
      have := feature_nonneg hb.enc r ((hb.all r).2 hr) hl
      exact ⟨t, ht, r, hr, hl, by omega, rfl⟩
    unfold TreeArr.getPartition
    cases hr : t.firstParent t.right id with
    | some r =>
      simp only
      obtain ⟨h1, h2⟩ := hsome hr
      have hT := htest r h1 (encodes_left hb.enc r ((hb.all r).2 h1) (by rw [h2]; exact Int.natCast_nonneg _))
      refine getPartition_tests ht ⟨b, hb⟩ fuel r _ _ fun f v => ?_
      unfold Rect.set
      by_cases hf : f = (t.feature r).toNat
      · subst hf
        simp only [if_true, Ival.above]
        refine ⟨fun hv => ?_, (h _ v).2⟩
        cases hl : (part (t.feature r).toNat).lo with
        | none =>
          rw [hl] at hv
          simp only [Option.some.injEq] at hv
          exact hv ▸ hT
        | some l =>
          rw [hl] at hv
          simp only [Option.some.injEq] at hv
          rcases max_choice l (t.threshold r) with e | e
          · rw [← hv, e]; exact (h _ l).1 hl
          · rw [← hv, e]; exact hT
      · simp only [hf, if_false]
        exact h f v
    | none =>
      cases hl : t.firstParent t.left id with
      | none => exact h
      | some r =>
        simp only
        obtain ⟨h1, h2⟩ := hsome hl
        have hT := htest r h1 (by rw [h2]; exact Int.natCast_nonneg _)
        refine getPartition_tests ht ⟨b, hb⟩ fuel r _ _ fun f v => ?_
        unfold Rect.set
        by_cases hf : f = (t.feature r).toNat
        · subst hf
          simp only [if_true, Ival.below]
          refine ⟨(h _ v).1, fun hv => ?_⟩
          cases hl : (part (t.feature r).toNat).hi with
          | none =>
            rw [hl] at hv
            simp only [Option.some.injEq] at hv
            exact hv ▸ hT
          | some l =>
            rw [hl] at hv
            simp only [Option.some.injEq] at hv
            rcases min_choice l (t.threshold r) with e | e
            · rw [← hv, e]; exact (h _ l).2 hl
            · rw [← hv, e]; exact hT
        · simp only [hf, if_false]
          exact h f v

theorem leafRect_tests {ts : List TreeArr} {m : Nat} (hw : ∀ t ∈ ts, WellFormed t m) {t : TreeArr} (ht : t ∈ ts) (ℓ : Nat) :
    RectTests ts (t.leafRect ℓ) :=
  getPartition_tests ht (hw t ht) _ _ _ _ fun f v => by simp [Ival.all]

theorem memOC_same {ts : List TreeArr} {r : Rect} (hr : RectTests ts r) {z z' : Row} (hz : SameAnswers ts z z') (f : Nat) :
    (r f).memOC (z' f) = (r f).memOC (z f) := by
  unfold Ival.memOC
  congr 1
  · cases h : (r f).hi with
    | none => rfl
    | some v => simp only [hz f v ((hr f v).2 h)]
  · cases h : (r f).lo with
    | none => rfl
    | some v => simp only [← not_le, hz f v ((hr f v).1 h)]

theorem memCC_same {ts : List TreeArr} {r : Rect} (hr : RectTests ts r) {z z' : Row} (hz : SameOrder ts z z') (f : Nat) :
    (r f).memCC (z' f) = (r f).memCC (z f) := by
  unfold Ival.memCC
  congr 1
  · cases h : (r f).hi with
    | none => rfl
    | some v => simp only [hz.1 f v ((hr f v).2 h)]
  · cases h : (r f).lo with
    | none => rfl
    | some v =>
      have h1 := hz.1 f v ((hr f v).1 h)
      have h2 := hz.2 f v ((hr f v).1 h)
      simp only [decide_eq_decide]
      rw [le_iff_lt_or_eq, le_iff_lt_or_eq (b := z f), ← not_le, ← not_le, h1, eq_comm, h2, eq_comm (a := z f)]

theorem sat_same {ts : List TreeArr} {r : Rect} (hr : RectTests ts r) {z z' : Row} (hz : SameAnswers ts z z') (S : List Nat) :
    sat r S z' = sat r S z := by
  unfold sat
  simp only [memOC_same hr hz]

theorem satCC_same {ts : List TreeArr} {r : Rect} (hr : RectTests ts r) {z z' : Row} (hz : SameOrder ts z z') (S : List Nat) :
    satCC r S z' = satCC r S z := by
  unfold satCC
  simp only [memCC_same hr hz]

theorem cnt_same {ts : List TreeArr} {r : Rect} (hr : RectTests ts r) {d d' : List Row} (hd : List.Forall₂ (SameAnswers ts) d d') (S : List Nat) :
    cnt d' r S = cnt d r S := forall₂_count (p := sat r S) (p' := sat r S) (fun _ _ hz => sat_same hr hz S) hd

theorem cntCC_same {ts : List TreeArr} {r : Rect} (hr : RectTests ts r) {d d' : List Row} (hd : List.Forall₂ (SameOrder ts) d d') (S : List Nat) :
    cntCC d' r S = cntCC d r S := forall₂_count (p := satCC r S) (p' := satCC r S) (fun _ _ hz => satCC_same hr hz S) hd

theorem cntCC2_same {ts : List TreeArr} {r q : Rect} (hr : RectTests ts r) (hq : RectTests ts q) {d d' : List Row}
    (hd : List.Forall₂ (SameOrder ts) d d') (S : List Nat) : cntCC2 d' r q S = cntCC2 d r q S :=
  forall₂_count (fun _ _ hz => by rw [satCC_same hr hz, satCC_same hq hz]) hd

/-- A node of a stored tree holds a test of the model, or has a negative feature. -/
theorem test_stored {m : Nat} {ts : List TreeArr} {t : TreeArr} (ht : t ∈ ts) {mem : Mem} (h : TreeStored m t mem) {n : Int} (hn : treeNodes t n)
    (hf : 0 ≤ mem.feat n) : IsTest ts (mem.feat n).toNat (mem.thr n) := by
  rcases hn with rfl | ⟨hn0, hn⟩
  · exact absurd hf (not_le.2 h.before.1)
  · lift n to Nat using hn0
    have hn' : n < t.size := by exact_mod_cast hn
    obtain ⟨e, e2, _, _⟩ := h.holds n hn'
    rw [e] at hf ⊢
    rw [e2]
    refine ⟨t, ht, n, hn', ?_, by omega, rfl⟩
    by_contra hl
    exact absurd hf (not_le.2 (h.negLeaf n hn' (not_le.1 hl)))

/-! ## Walks of the projected forest with the same answers -/

/-- Decisions and answers that agree on the nodes of `Q`. -/
def AgreeTests (mem : Mem) (Q : Int → Prop) (dir dir' : Int → ℚ → Option Bool) (data data' : Nat → Row) : Prop :=
  ∀ n, Q n → dir' (mem.feat n) (mem.thr n) = dir (mem.feat n) (mem.thr n) ∧
    (dir (mem.feat n) (mem.thr n) ≠ none → ∀ i, (data' i (mem.feat n).toNat ≤ mem.thr n ↔ data i (mem.feat n).toNat ≤ mem.thr n))

theorem visitD_tests {mem : Mem} {Q : Int → Prop} {dir dir' : Int → ℚ → Option Bool} {data data' : Nat → Row}
    (h : AgreeTests mem Q dir dir' data data') (push : List Int → Int → List Int) {n : Int} (hn : Q n) (st : PState) :
    mem.visitD push dir' data' n st = mem.visitD push dir data n st := by
  obtain ⟨h1, h2⟩ := h n hn
  unfold Mem.visitD
  rw [h1]
  cases hd : dir (mem.feat n) (mem.thr n) with
  | none => rfl
  | some b =>
    have h3 := h2 (by rw [hd]; simp)
    cases b <;> simp only [← not_le, h3]

theorem scanD_tests {mem : Mem} {Q : Int → Prop} (hQ : ClosedUnder mem Q) {dir dir' : Int → ℚ → Option Bool} {data data' : Nat → Row}
    (h : AgreeTests mem Q dir dir' data data') {push : List Int → Int → List Int} (hpush : ∀ l a c, c ∈ push l a ↔ c = a ∨ c ∈ l)
    (minSize : Nat) : ∀ (ns : List Int) (st : PState), (∀ n ∈ ns, Q n) → (∀ c ∈ st.child, Q c) →
    mem.scanD push dir' data' minSize ns st = mem.scanD push dir data minSize ns st ∧
      ∀ c ∈ (mem.scanD push dir data minSize ns st).child, Q c
  | [], _, _, hst => ⟨rfl, hst⟩
  | n :: ns, st, hns, hst => by
    have hn := hns n (by simp)
    have hc := visitD_child hQ hpush dir data hn hst
    unfold Mem.scanD
    simp only [visitD_tests h push hn]
    split
    · exact ⟨rfl, hc⟩
    · exact scanD_tests hQ h hpush minSize ns _ (fun n hn => hns n (by simp [hn])) hc

theorem levelsD_tests {mem : Mem} {Q : Int → Prop} (hQ : ClosedUnder mem Q) {dir dir' : Int → ℚ → Option Bool} {data data' : Nat → Row}
    (h : AgreeTests mem Q dir dir' data data') {push : List Int → Int → List Int} (hpush : ∀ l a c, c ∈ push l a ↔ c = a ∨ c ∈ l)
    (minSize : Nat) : ∀ (k : Nat) (ns : List Int) (st : PState), (∀ n ∈ ns, Q n) → (∀ c ∈ st.child, Q c) →
    mem.levelsD push dir' data' minSize k ns st = mem.levelsD push dir data minSize k ns st
  | 0, _, _, _, _ => rfl
  | k + 1, ns, st, hns, hst => by
    obtain ⟨h1, h2⟩ := scanD_tests hQ h hpush minSize ns st hns hst
    unfold Mem.levelsD
    simp only [h1]
    exact levelsD_tests hQ h hpush minSize k _ _ h2 h2

theorem forestRunD_tests {dir dir' : Int → ℚ → Option Bool} {data data' : Nat → Row} {push : List Int → Int → List Int}
    (hpush : ∀ l a c, c ∈ push l a ↔ c = a ∨ c ∈ l) (minSize maxDepth N : Nat) : ∀ (mems : List Mem) (r : Rule),
    (∀ mem ∈ mems, ∃ Q, ClosedUnder mem Q ∧ AgreeTests mem Q dir dir' data data') →
    forestRunD push dir' data' minSize maxDepth N mems r = forestRunD push dir data minSize maxDepth N mems r
  | [], _, _ => rfl
  | mem :: mems, r, h => by
    obtain ⟨Q, hQ, ha⟩ := h mem (by simp)
    have h1 := levelsD_tests hQ ha hpush minSize maxDepth [0] ⟨[], List.range N, r⟩ (by simpa using hQ.root) (by simp)
    unfold forestRunD Mem.runD
    simp only [h1]
    rw [forestRunD_tests hpush minSize maxDepth N mems _ fun mem hm => h mem (by simp [hm])]

end Acv
