import Verif.Model.LoadIso
import Verif.Lemmas.LoadSpark
import Verif.Lemmas.LeafShap

/-!
# Lemmas on isolation trees
-/

namespace Acv

/-- Sum over the leaves of the path length times the number of rows. -/
def isoSum (ns : Nat → ℚ) (c : ℚ → ℚ) : BTree → ℚ → ℚ
  | .leaf i, level => (level + c (ns i)) * ns i
  | .node _ _ _ l r, level => isoSum ns c l (level + 1) + isoSum ns c r (level + 1)

/-- The column holds the path lengths of the leaves and the averages of the inner nodes. -/
def IsoHolds (ns : Nat → ℚ) (c : ℚ → ℚ) (vals : Nat → ℚ) : BTree → ℚ → Prop
  | .leaf i, level => vals i = level + c (ns i)
  | .node i f thr l r, level =>
    vals i = isoSum ns c (.node i f thr l r) level / ns i ∧ IsoHolds ns c vals l (level + 1) ∧ IsoHolds ns c vals r (level + 1)

theorem isoHolds_congr {ns c} {u v : Nat → ℚ} : ∀ (b : BTree) (level : ℚ), (∀ i ∈ b.ids, u i = v i) → IsoHolds ns c u b level → IsoHolds ns c v b level
  | .leaf i, level, h, hh => by
    show v i = _
    rw [← h i (by simp [BTree.ids])]
    exact hh
  | .node i f thr l r, level, h, hh => by
    refine ⟨?_, isoHolds_congr l _ (fun j hj => h j ?_) hh.2.1, isoHolds_congr r _ (fun j hj => h j ?_) hh.2.2⟩
    · rw [← h i (by simp [BTree.ids])]; exact hh.1
    · simp [BTree.ids, hj]
    · simp [BTree.ids, hj]

theorem isoRecalc_spec {raw : TreeArr} {ns : Nat → ℚ} {c : ℚ → ℚ} : ∀ (b : BTree) (fuel : Nat) (level : ℚ) (vals : Nat → ℚ), Encodes raw b → b.ids.Nodup →
    (∀ n ∈ b.ids, raw.left n < 0 → raw.left n = -1 ∧ raw.right n = -1) → b.height < fuel →
    ∃ vals', isoRecalc raw ns c fuel b.id level vals = (isoSum ns c b level, vals') ∧ IsoHolds ns c vals' b level ∧ ∀ j, j ∉ b.ids → vals' j = vals j
  | _, 0, _, _, _, _, _, h => by omega
  | .leaf i, fuel + 1, level, vals, he, _, hneg, _ => by
    have h1 := hneg i (by simp [BTree.ids]) he.1
    refine ⟨setAt vals i (level + c (ns i)), ?_, setAt_same .., ?_⟩
    · show isoRecalc raw ns c (fuel + 1) i level vals = _
      unfold isoRecalc
      rw [if_pos h1]
      rfl
    · intro j hj
      exact setAt_other _ _ (by simpa [BTree.ids] using hj)
  | .node i f thr l r, fuel + 1, level, vals, he, hnd, hneg, hf => by
    obtain ⟨e1, e2, -, -, -, el, er⟩ := he
    simp only [BTree.ids, List.nodup_cons, List.mem_append, List.nodup_append] at hnd
    obtain ⟨hi, ndl, ndr, hdisj⟩ := hnd
    simp only [BTree.height] at hf
    obtain ⟨v1, a1, a2, a3⟩ := isoRecalc_spec (ns := ns) (c := c) l fuel (level + 1) vals el ndl (fun n hn => hneg n (by simp [BTree.ids, hn])) (by omega)
    obtain ⟨v2, b1, b2, b3⟩ := isoRecalc_spec (ns := ns) (c := c) r fuel (level + 1) v1 er ndr (fun n hn => hneg n (by simp [BTree.ids, hn])) (by omega)
    refine ⟨setAt v2 i ((isoSum ns c l (level + 1) + isoSum ns c r (level + 1)) / ns i), ?_, ⟨setAt_same .., ?_, ?_⟩, ?_⟩
    · show isoRecalc raw ns c (fuel + 1) i level vals = _
      unfold isoRecalc
      have hne : ¬ (raw.left i = -1 ∧ raw.right i = -1) := by rw [e1]; intro h; have := h.1; omega
      rw [if_neg hne, e1, e2]
      simp only [Int.toNat_natCast, a1, b1]
      rfl
    · refine isoHolds_congr l _ ?_ a2
      intro j hj
      rw [setAt_other _ _ (by rintro rfl; exact hi (Or.inl hj)), b3 j (fun h => hdisj j hj j h rfl)]
    · refine isoHolds_congr r _ ?_ b2
      intro j hj
      rw [setAt_other _ _ (by rintro rfl; exact hi (Or.inr hj))]
    · intro j hj
      simp only [BTree.ids, List.mem_cons, List.mem_append, not_or] at hj
      rw [setAt_other _ _ hj.1, b3 j hj.2.2, a3 j hj.2.1]

/-- Going down the tree. -/
theorem isoHolds_above {t : TreeArr} {ns c vals} {k p n : Nat} (h : Above t k p n) : ∀ (b : BTree) (level : ℚ), b.id = p → Encodes t b →
    IsoHolds ns c vals b level → ∃ b', b'.id = n ∧ Encodes t b' ∧ IsoHolds ns c vals b' (level + k) := by
  induction h with
  | refl n => exact fun b level h1 h2 h3 => ⟨b, h1, h2, by simpa using h3⟩
  | @step k p q n hc _ ih =>
    intro b level h1 h2 h3
    cases b with
    | leaf i =>
      obtain rfl : i = p := h1
      rcases hc.2 with h | h
      · have := h2.1; omega
      · have := h2.2; omega
    | node i f thr l r =>
      obtain rfl : i = p := h1
      obtain ⟨e1, e2, -, -, -, el, er⟩ := h2
      have key : ∀ b'', b''.id = q → Encodes t b'' → IsoHolds ns c vals b'' (level + 1) →
          ∃ b', b'.id = n ∧ Encodes t b' ∧ IsoHolds ns c vals b' (level + (k + 1 : Nat)) := by
        intro b'' g1 g2 g3
        obtain ⟨b', f1, f2, f3⟩ := ih b'' (level + 1) g1 g2 g3
        refine ⟨b', f1, f2, ?_⟩
        convert f3 using 1
        push_cast; ring
      rcases hc.2 with h | h
      · exact key l (by rw [e1] at h; exact_mod_cast h) el h3.2.1
      · exact key r (by rw [e2] at h; exact_mod_cast h) er h3.2.2

/-- Renaming the variables of a tree. -/
def BTree.rename (g : Nat → Nat) : BTree → BTree
  | .leaf i => .leaf i
  | .node i f thr l r => .node i (g f) thr (l.rename g) (r.rename g)

theorem BTree.rename_id (g : Nat → Nat) (b : BTree) : (b.rename g).id = b.id := by cases b <;> rfl

theorem BTree.rename_ids (g : Nat → Nat) : ∀ b : BTree, (b.rename g).ids = b.ids
  | .leaf _ => rfl
  | .node i f thr l r => by simp only [BTree.rename, BTree.ids, l.rename_ids g, r.rename_ids g]

theorem BTree.rename_vars (g : Nat → Nat) : ∀ b : BTree, (b.rename g).vars = b.vars.map g
  | .leaf _ => rfl
  | .node i f thr l r => by simp only [BTree.rename, BTree.vars, l.rename_vars g, r.rename_vars g, List.map_cons, List.map_append]

theorem BTree.rename_descend (g : Nat → Nat) (x : Nat → ℚ) : ∀ b : BTree, (b.rename g).descend x = b.descend fun j => x (g j)
  | .leaf _ => rfl
  | .node i f thr l r => by simp only [BTree.rename, BTree.descend, l.rename_descend g x, r.rename_descend g x]

theorem encodes_rename {t u : TreeArr} {g : Nat → Nat} (hl : u.left = t.left) (hr : u.right = t.right) (hd : u.dflt = t.left) (ht : u.threshold = t.threshold)
    (hf : ∀ n f, t.feature n = ((f : Nat) : Int) → u.feature n = (g f : Nat)) : ∀ b : BTree, Encodes t b → Encodes u (b.rename g)
  | .leaf i, h => ⟨by rw [hl]; exact h.1, by rw [hr]; exact h.2⟩
  | .node i f thr l r, h => by
    obtain ⟨e1, e2, -, e4, e5, el, er⟩ := h
    refine ⟨?_, ?_, Or.inl (by rw [hd, hl]), hf _ _ e4, by rw [ht]; exact e5, encodes_rename hl hr hd ht hf l el, encodes_rename hl hr hd ht hf r er⟩
    · rw [hl, BTree.rename_id]; exact e1
    · rw [hr, BTree.rename_id]; exact e2

end Acv
