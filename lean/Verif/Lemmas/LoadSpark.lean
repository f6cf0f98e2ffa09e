import Verif.Spec.LoadSpark
import Verif.Lemmas.Tree

/-!
# Lemmas on the Spark loader
-/

namespace Acv

/-- The arrays hold the tree, numbered in preorder from `i`. -/
def SparkNode.Held (t : TreeArr) : SparkNode → Nat → Prop
  | .leaf v c, i => t.left i = -2 ∧ t.right i = -2 ∧ t.value i = v ∧ t.weight i = c
  | .split f test v c l r, i => t.left i = ((i + 1 : Nat) : Int) ∧ t.right i = ((i + 1 + l.size : Nat) : Int) ∧ t.feature i = f ∧
      test = .continuous (t.threshold i) ∧ t.value i = v ∧ t.weight i = c ∧ l.Held t (i + 1) ∧ r.Held t (i + 1 + l.size)

/-- The arrays agree at `j`. -/
def TreeArr.SameAt (t u : TreeArr) (j : Nat) : Prop :=
  t.left j = u.left j ∧ t.right j = u.right j ∧ t.feature j = u.feature j ∧ t.threshold j = u.threshold j ∧ t.value j = u.value j ∧
    t.weight j = u.weight j

theorem SparkNode.size_pos (T : SparkNode) : 0 < T.size := by cases T <;> simp [SparkNode.size]

theorem SparkNode.held_congr {t u : TreeArr} : ∀ (T : SparkNode) (i : Nat), (∀ j, i ≤ j → j < i + T.size → t.SameAt u j) → T.Held t i → T.Held u i
  | .leaf v c, i, h, hh => by
    obtain ⟨h1, h2, -, -, h5, h6⟩ := h i (le_refl _) (by simp [SparkNode.size])
    obtain ⟨a, b, c, d⟩ := hh
    exact ⟨h1 ▸ a, h2 ▸ b, h5 ▸ c, h6 ▸ d⟩
  | .split f test v c l r, i, h, hh => by
    have hs : (SparkNode.split f test v c l r).size = 1 + l.size + r.size := rfl
    obtain ⟨h1, h2, h3, h4, h5, h6⟩ := h i (le_refl _) (by omega)
    obtain ⟨a1, a2, a3, a4, a5, a6, a7, a8⟩ := hh
    refine ⟨h1 ▸ a1, h2 ▸ a2, h3 ▸ a3, h4 ▸ a4, h5 ▸ a5, h6 ▸ a6, ?_, ?_⟩
    · exact l.held_congr (i + 1) (fun j h1 h2 => h j (by omega) (by omega)) a7
    · exact r.held_congr (i + 1 + l.size) (fun j h1 h2 => h j (by omega) (by omega)) a8

theorem setAt_same {α : Type} (f : Nat → α) (i : Nat) (v : α) : setAt f i v i = v := if_pos rfl
theorem setAt_other {α : Type} (f : Nat → α) {i j : Nat} (v : α) (h : j ≠ i) : setAt f i v j = f j := if_neg h

theorem sparkBuild_spec {d : Nat} : ∀ (T : SparkNode) (i : Nat) (t : TreeArr), T.Numeric d →
    (∀ j, i ≤ j → j < i + T.size → t.left j = -2 ∧ t.right j = -2) →
    ∃ t', sparkBuild T i t = .ok (i + T.size - 1, t') ∧ T.Held t' i ∧ t'.size = t.size ∧ ∀ j, (j < i ∨ i + T.size ≤ j) → t.SameAt t' j
  | .leaf v c, i, t, _, h => by
    obtain ⟨h1, h2⟩ := h i (le_refl _) (by simp [SparkNode.size])
    refine ⟨t.putStats i v c, rfl, ⟨h1, h2, setAt_same .., setAt_same ..⟩, rfl, ?_⟩
    intro j hj
    have hs : (SparkNode.leaf v c).size = 1 := rfl
    have : j ≠ i := by omega
    exact ⟨rfl, rfl, rfl, rfl, (setAt_other _ _ this).symm, (setAt_other _ _ this).symm⟩
  | .split f test v c l r, i, t, hn, h => by
    obtain ⟨-, ⟨thr, rfl⟩, hl, hr⟩ := hn
    have hs : (SparkNode.split f (.continuous thr) v c l r).size = 1 + l.size + r.size := rfl
    have hlp := l.size_pos
    have hrp := r.size_pos
    obtain ⟨t1, e1, held1, s1, o1⟩ := sparkBuild_spec l (i + 1) ((t.putStats i v c).putTest i f thr) hl (by
      intro j h1 h2
      have := h j (by omega) (by omega)
      refine ⟨?_, this.2⟩
      show setAt t.left i _ j = -2
      rw [setAt_other _ _ (by omega)]
      exact this.1)
    obtain ⟨t2, e2, held2, s2, o2⟩ := sparkBuild_spec r (i + 1 + l.size) (t1.putRight i (i + l.size)) hr (by
      intro j h1 h2
      have hj := h j (by omega) (by omega)
      have ho := o1 j (Or.inr (by omega))
      constructor
      · show t1.left j = -2
        rw [← ho.1]
        show setAt t.left i _ j = -2
        rw [setAt_other _ _ (by omega)]
        exact hj.1
      · show setAt t1.right i _ j = -2
        rw [setAt_other _ _ (by omega), ← ho.2.1]
        exact hj.2)
    refine ⟨t2, ?_, ?_, ?_, ?_⟩
    · unfold sparkBuild
      rw [e1]
      have a : i + 1 + l.size - 1 = i + l.size := by omega
      have b : i + l.size + 1 = i + 1 + l.size := by omega
      simp only [a, b]
      rw [e2, hs]
      congr 2
      omega
    · have hi1 := o1 i (Or.inl (by omega))
      have hi2 := o2 i (Or.inl (by omega))
      obtain ⟨p1, p2, p3, p4, p5, p6⟩ := hi1
      obtain ⟨q1, q2, q3, q4, q5, q6⟩ := hi2
      refine ⟨?_, ?_, ?_, ?_, ?_, ?_, ?_, held2⟩
      · rw [← q1]; show t1.left i = _; rw [← p1]; exact setAt_same ..
      · rw [← q2]
        show setAt t1.right i _ i = _
        rw [setAt_same]
        push_cast; ring
      · rw [← q3]; show t1.feature i = _; rw [← p3]; exact setAt_same ..
      · rw [← q4]; show SparkTest.continuous thr = .continuous (t1.threshold i); rw [← p4]; exact congrArg _ (setAt_same ..).symm
      · rw [← q5]; show t1.value i = _; rw [← p5]; exact setAt_same ..
      · rw [← q6]; show t1.weight i = _; rw [← p6]; exact setAt_same ..
      · refine l.held_congr (i + 1) ?_ held1
        intro j h1 h2
        have := o2 j (Or.inl (by omega))
        obtain ⟨q1, q2, q3, q4, q5, q6⟩ := this
        refine ⟨q1, ?_, q3, q4, q5, q6⟩
        rw [← q2]
        exact (setAt_other _ _ (by omega)).symm
    · rw [s2]; exact s1
    · intro j hj
      have hj1 := o1 j (by omega)
      have hj2 := o2 j (by omega)
      have hne : j ≠ i := by omega
      obtain ⟨p1, p2, p3, p4, p5, p6⟩ := hj1
      obtain ⟨q1, q2, q3, q4, q5, q6⟩ := hj2
      refine ⟨?_, ?_, ?_, ?_, ?_, ?_⟩
      · rw [← q1]; show _ = t1.left j; rw [← p1]; exact (setAt_other _ _ hne).symm
      · rw [← q2]; show _ = setAt t1.right i _ j; rw [setAt_other _ _ hne, ← p2]; rfl
      · rw [← q3]; show _ = t1.feature j; rw [← p3]; exact (setAt_other _ _ hne).symm
      · rw [← q4]; show _ = t1.threshold j; rw [← p4]; exact (setAt_other _ _ hne).symm
      · rw [← q5]; show _ = t1.value j; rw [← p5]; exact (setAt_other _ _ hne).symm
      · rw [← q6]; show _ = t1.weight j; rw [← p6]; exact (setAt_other _ _ hne).symm

/-- The binary tree, numbered in preorder from `i`. -/
def SparkNode.toB : SparkNode → Nat → BTree
  | .leaf _ _, i => .leaf i
  | .split f (.continuous thr) _ _ l r, i => .node i f thr (l.toB (i + 1)) (r.toB (i + 1 + l.size))
  | .split f (.categorical _) _ _ l r, i => .node i f 0 (l.toB (i + 1)) (r.toB (i + 1 + l.size))

theorem SparkNode.toB_id : ∀ (T : SparkNode) (i : Nat), (T.toB i).id = i
  | .leaf _ _, _ => rfl
  | .split _ (.continuous _) _ _ _ _, _ => rfl
  | .split _ (.categorical _) _ _ _ _, _ => rfl

theorem SparkNode.toB_ids : ∀ (T : SparkNode) (i : Nat), (T.toB i).ids = List.range' i T.size
  | .leaf _ _, _ => rfl
  | .split f test v c l r, i => by
    have : ((SparkNode.split f test v c l r).toB i).ids = i :: ((l.toB (i + 1)).ids ++ (r.toB (i + 1 + l.size)).ids) := by
      cases test <;> rfl
    rw [this, l.toB_ids, r.toB_ids, List.range'_append_1]
    show _ = List.range' i (1 + l.size + r.size)
    rw [show 1 + l.size + r.size = (l.size + r.size) + 1 by omega, List.range'_succ]

theorem SparkNode.toB_vars {d : Nat} : ∀ (T : SparkNode) (i : Nat), T.Numeric d → ∀ f ∈ (T.toB i).vars, f < d
  | .leaf _ _, _, _, f, hf => by simp [SparkNode.toB, BTree.vars] at hf
  | .split g test v c l r, i, h, f, hf => by
    obtain ⟨hg, ⟨thr, rfl⟩, hl, hr⟩ := h
    simp only [SparkNode.toB, BTree.vars, List.mem_cons, List.mem_append] at hf
    rcases hf with rfl | hf | hf
    · exact hg
    · exact l.toB_vars (i + 1) hl f hf
    · exact r.toB_vars (i + 1 + l.size) hr f hf

theorem SparkNode.toB_encodes {t : TreeArr} (hd : t.dflt = t.left) : ∀ (T : SparkNode) (i : Nat), T.Held t i → Encodes t (T.toB i)
  | .leaf _ _, i, h => ⟨by rw [h.1]; decide, by rw [h.2.1]; decide⟩
  | .split f test v c l r, i, h => by
    obtain ⟨h1, h2, h3, rfl, -, -, h7, h8⟩ := h
    refine ⟨?_, ?_, Or.inl (by rw [hd]), h3, rfl, l.toB_encodes hd _ h7, r.toB_encodes hd _ h8⟩
    · rw [l.toB_id]; exact h1
    · rw [r.toB_id]; exact h2

/-- The leaf in which an observation ends holds the values and the count of the node in which it ends. -/
theorem SparkNode.outcome_held {t : TreeArr} (x : Nat → ℚ) : ∀ (T : SparkNode) (i : Nat), T.Held t i →
    t.value ((T.toB i).descend x) = T.outcome x ∧ t.weight ((T.toB i).descend x) = T.rows x
  | .leaf _ _, i, h => ⟨h.2.2.1, h.2.2.2⟩
  | .split f test v c l r, i, h => by
    obtain ⟨h1, h2, h3, rfl, -, -, h7, h8⟩ := h
    simp only [SparkNode.toB, BTree.descend, SparkNode.outcome, SparkNode.rows]
    split
    · exact l.outcome_held x _ h7
    · exact r.outcome_held x _ h8

end Acv
