import Verif.Spec.Tree
import Mathlib.Data.List.Nodup
import Mathlib.Data.List.Perm.Basic
import Mathlib.Tactic.Linarith
import Mathlib.Tactic.Ring

namespace Acv

/-- child pointer on a side -/
def TreeArr.child (t : TreeArr) (right : Bool) : Nat → Int := if right then t.right else t.left

namespace BTree

/-- parent/side/child triples -/
def links : BTree → List (Nat × Bool × Nat)
  | leaf _ => []
  | node i _ _ l r => (i, false, l.id) :: (i, true, r.id) :: (l.links ++ r.links)

@[simp] theorem id_node (i f thr l r) : (BTree.node i f thr l r).id = i := rfl
@[simp] theorem id_leaf (i) : (BTree.leaf i).id = i := rfl

theorem id_mem_ids (b : BTree) : b.id ∈ b.ids := by cases b <;> simp [id, ids]

theorem ids_perm (b : BTree) : b.ids.Perm (b.id :: b.links.map (·.2.2)) := by
  induction b with
  | leaf i => simp [ids, id, links]
  | node i f thr l r ihl ihr =>
    simp only [ids, id, links, List.map_cons, List.map_append]
    refine List.Perm.cons _ ?_
    have h := List.Perm.append ihl ihr
    refine h.trans ?_
    simp only [List.cons_append]
    refine List.Perm.cons _ ?_
    exact List.perm_middle

theorem leaves_sub (b : BTree) : ∀ n ∈ b.leaves, n ∈ b.ids := by
  induction b with
  | leaf i => simp [leaves, ids]
  | node i f thr l r ihl ihr =>
    intro n hn
    simp only [leaves, List.mem_append] at hn
    simp only [ids, List.mem_cons, List.mem_append]
    rcases hn with h | h
    · exact Or.inr (Or.inl (ihl n h))
    · exact Or.inr (Or.inr (ihr n h))

theorem descend_mem (x : Nat → ℚ) (b : BTree) : b.descend x ∈ b.leaves := by
  induction b with
  | leaf i => simp [descend, leaves]
  | node i f thr l r ihl ihr =>
    simp only [descend, leaves, List.mem_append]
    split
    · exact Or.inl ihl
    · exact Or.inr ihr

theorem height_lt (b : BTree) : b.height < b.ids.length := by
  induction b with
  | leaf i => simp [height, ids]
  | node i f thr l r ihl ihr =>
    simp only [height, ids, List.length_cons, List.length_append]
    omega

end BTree

theorem ids_length {t : TreeArr} {d b} (h : IsTree t d b) : b.ids.length = t.size := by
  have hp : b.ids.Perm (List.range t.size) := by
    rw [List.perm_ext_iff_of_nodup h.nodup List.nodup_range]
    intro n; rw [h.all, List.mem_range]
  simpa using hp.length_eq

theorem encodes_leaf_iff {t : TreeArr} : ∀ {b : BTree}, Encodes t b → b.ids.Nodup →
    ∀ n ∈ b.ids, (t.isLeaf n = true ↔ n ∈ b.leaves)
  | .leaf i, h, _, n, hn => by
    simp only [BTree.ids, List.mem_singleton] at hn
    subst hn
    simp [TreeArr.isLeaf, BTree.leaves, h.1]
  | .node i f thr l r, h, hnd, n, hn => by
    obtain ⟨h1, h2, h3, h4, h5, h6, h7⟩ := h
    simp only [BTree.ids, List.nodup_cons, List.mem_append, not_or, List.nodup_append] at hnd
    simp only [BTree.ids, List.mem_cons, List.mem_append] at hn
    simp only [BTree.leaves, List.mem_append]
    rcases hn with rfl | hn | hn
    · constructor
      · intro hl; simp [TreeArr.isLeaf, h1] at hl
        omega
      · rintro (hl | hl)
        · exact absurd (l.leaves_sub _ hl) hnd.1.1
        · exact absurd (r.leaves_sub _ hl) hnd.1.2
    · rw [encodes_leaf_iff h6 hnd.2.1 n hn]
      constructor
      · exact Or.inl
      · rintro (hl | hl)
        · exact hl
        · exact absurd rfl (hnd.2.2.2 n hn n (r.leaves_sub _ hl))
    · rw [encodes_leaf_iff h7 hnd.2.2.1 n hn]
      constructor
      · exact Or.inr
      · rintro (hl | hl)
        · exact absurd rfl (hnd.2.2.2 n (l.leaves_sub _ hl) n hn)
        · exact hl

/-- every nonnegative child pointer of a node of the tree is a link -/
theorem mem_links {t : TreeArr} : ∀ {b : BTree}, Encodes t b → ∀ p ∈ b.ids, ∀ s c,
    t.child s p = ((c : Nat) : Int) → (p, s, c) ∈ b.links
  | .leaf i, h, p, hp, s, c, hc => by
    simp only [BTree.ids, List.mem_singleton] at hp
    subst hp
    have h1 := h.1; have h2 := h.2
    cases s <;> simp [TreeArr.child] at hc <;> omega
  | .node i f thr l r, h, p, hp, s, c, hc => by
    obtain ⟨h1, h2, h3, h4, h5, h6, h7⟩ := h
    simp only [BTree.ids, List.mem_cons, List.mem_append] at hp
    simp only [BTree.links, List.mem_cons, List.mem_append]
    rcases hp with rfl | hp | hp
    · cases s
      · simp only [TreeArr.child] at hc
        left; simp at hc; rw [h1] at hc; simp; omega
      · simp only [TreeArr.child] at hc
        right; left; simp at hc; rw [h2] at hc; simp; omega
    · exact Or.inr (Or.inr (Or.inl (mem_links h6 p hp s c hc)))
    · exact Or.inr (Or.inr (Or.inr (mem_links h7 p hp s c hc)))

theorem links_unique {b : BTree} (hnd : b.ids.Nodup) {p s p' s' c : _}
    (h : (p, s, c) ∈ b.links) (h' : (p', s', c) ∈ b.links) : p = p' ∧ s = s' := by
  have hp := (b.ids_perm.nodup_iff.mp hnd)
  rw [List.nodup_cons] at hp
  have := List.inj_on_of_nodup_map hp.2 h h' rfl
  simpa using this

theorem root_not_link {b : BTree} (hnd : b.ids.Nodup) {p s c : _} (h : (p, s, c) ∈ b.links) : c ≠ b.id := by
  have hp := (b.ids_perm.nodup_iff.mp hnd)
  rw [List.nodup_cons] at hp
  rintro rfl
  exact hp.1 (List.mem_map.mpr ⟨_, h, rfl⟩)

/-- In a well-formed array, `firstParent` finds the parent on side `s` iff there is one. -/
theorem firstParent_some {t : TreeArr} {d b} (h : IsTree t d b) {s : Bool} {p c : Nat} (hp : p < t.size)
    (hc : t.child s p = (c : Int)) : t.firstParent (t.child s) c = some p ∧ t.firstParent (t.child (!s)) c = none := by
  have hl := mem_links h.enc p ((h.all p).mpr hp) s c hc
  constructor
  · unfold TreeArr.firstParent
    cases hf : (List.range t.size).find? (fun j => t.child s j == (c : Int)) with
    | none =>
      rw [List.find?_eq_none] at hf
      exact absurd (by simpa using hc) (hf p (List.mem_range.mpr hp))
    | some q =>
      have h1 := List.find?_some hf
      have h2 := List.mem_of_find?_eq_some hf
      simp only [beq_iff_eq] at h1
      have hl' := mem_links h.enc q ((h.all q).mpr (List.mem_range.mp h2)) s c h1
      rw [(links_unique h.nodup hl hl').1]
  · unfold TreeArr.firstParent
    rw [List.find?_eq_none]
    intro q hq
    simp only [beq_iff_eq]
    intro hc'
    have hl' := mem_links h.enc q ((h.all q).mpr (List.mem_range.mp hq)) (!s) c hc'
    have := (links_unique h.nodup hl hl').2
    cases s <;> simp at this

theorem firstParent_root {t : TreeArr} {d b} (h : IsTree t d b) (s : Bool) : t.firstParent (t.child s) 0 = none := by
  unfold TreeArr.firstParent
  rw [List.find?_eq_none]
  intro q hq
  simp only [beq_iff_eq]
  intro hc'
  have hl' := mem_links h.enc q ((h.all q).mpr (List.mem_range.mp hq)) s 0 hc'
  exact root_not_link h.nodup hl' h.root.symm

/-- chain of (parent, side) from a node up to the root, nearest parent first -/
inductive UpChain (t : TreeArr) : Nat → List (Nat × Bool) → Prop
  | root : UpChain t 0 []
  | step {p s n c} : UpChain t p c → p < t.size → t.child s p = ((n : Nat) : Int) → UpChain t n ((p, s) :: c)

/-- narrowing along one link -/
def TreeArr.narrow (t : TreeArr) (part : Rect) (ps : Nat × Bool) : Rect :=
  let f := (t.feature ps.1).toNat
  part.set f (if ps.2 then (part f).above (t.threshold ps.1) else (part f).below (t.threshold ps.1))

theorem getPartition_chain {t : TreeArr} {d b} (h : IsTree t d b) {n c} (hc : UpChain t n c) :
    ∀ fuel part ids, c.length ≤ fuel →
      t.getPartition fuel n part ids = (c.foldl t.narrow part, ids ++ c.map (fun ps => t.feature ps.1)) := by
  induction hc with
  | root =>
    intro fuel part ids _
    cases fuel with
    | zero => simp [TreeArr.getPartition]
    | succ k =>
      have h1 := firstParent_root h true
      have h2 := firstParent_root h false
      simp only [TreeArr.child, if_true] at h1
      simp only [TreeArr.child] at h2
      simp only [TreeArr.getPartition, h1]
      simp at h2
      simp [h2]
  | @step p s n c hpc hp hch ih =>
    intro fuel part ids hf
    cases fuel with
    | zero => simp at hf
    | succ k =>
      have ⟨h1, h2⟩ := firstParent_some h hp hch
      have hk : c.length ≤ k := by simpa using hf
      cases s
      · simp only [TreeArr.child, Bool.not_false, if_true] at h1 h2
        simp at h1
        simp only [TreeArr.getPartition, h1, h2]
        rw [ih k _ _ hk]
        simp [TreeArr.narrow]
      · simp only [TreeArr.child, Bool.not_true, if_true] at h1 h2
        simp at h2
        simp only [TreeArr.getPartition, h1]
        rw [ih k _ _ hk]
        simp [TreeArr.narrow]

theorem memOC_above (i : Ival) (t v : ℚ) : (i.above t).memOC v = true ↔ i.memOC v = true ∧ t < v := by
  rcases i with ⟨_ | l, _ | h⟩ <;> simp [Ival.above, Ival.memOC, and_assoc]

theorem memOC_below (i : Ival) (t v : ℚ) : (i.below t).memOC v = true ↔ i.memOC v = true ∧ v ≤ t := by
  rcases i with ⟨_ | l, _ | h⟩ <;> simp [Ival.below, Ival.memOC] <;> tauto

/-- the decision of a link for a complete observation -/
def TreeArr.linkSat (t : TreeArr) (x : Nat → ℚ) (ps : Nat × Bool) : Prop :=
  if ps.2 then t.threshold ps.1 < x (t.feature ps.1).toNat else x (t.feature ps.1).toNat ≤ t.threshold ps.1

theorem Rect.memOC_iff (d : Nat) (p : Rect) (x : Nat → ℚ) :
    p.memOC d x = true ↔ ∀ s < d, (p s).memOC (x s) = true := by
  simp [Rect.memOC]

theorem memOC_narrow {t : TreeArr} {d : Nat} {part : Rect} {ps : Nat × Bool} {x : Nat → ℚ}
    (hf : (t.feature ps.1).toNat < d) :
    (t.narrow part ps).memOC d x = true ↔ part.memOC d x = true ∧ t.linkSat x ps := by
  rw [Rect.memOC_iff, Rect.memOC_iff]
  unfold TreeArr.narrow TreeArr.linkSat Rect.set
  constructor
  · intro H
    have H0 := H _ hf
    simp only [if_true] at H0
    constructor
    · intro s hs
      have := H s hs
      by_cases hsf : s = (t.feature ps.1).toNat
      · subst hsf
        cases hps : ps.2
        · rw [hps] at H0; simp at H0; exact (memOC_below _ _ _).mp H0 |>.1
        · rw [hps] at H0; simp at H0; exact (memOC_above _ _ _).mp H0 |>.1
      · simpa [hsf] using this
    · cases hps : ps.2
      · rw [hps] at H0; simp at H0; simpa using ((memOC_below _ _ _).mp H0).2
      · rw [hps] at H0; simp at H0; simpa using ((memOC_above _ _ _).mp H0).2
  · rintro ⟨H1, H2⟩ s hs
    by_cases hsf : s = (t.feature ps.1).toNat
    · subst hsf
      simp only [if_true]
      cases hps : ps.2
      · rw [hps] at H2; simp at H2; simp; exact (memOC_below _ _ _).mpr ⟨H1 _ hs, H2⟩
      · rw [hps] at H2; simp at H2; simp; exact (memOC_above _ _ _).mpr ⟨H1 _ hs, H2⟩
    · simpa [hsf] using H1 s hs

theorem memOC_foldl_narrow {t : TreeArr} {d : Nat} {x : Nat → ℚ} : ∀ (c : List (Nat × Bool)) (part : Rect),
    (∀ ps ∈ c, (t.feature ps.1).toNat < d) →
    ((c.foldl t.narrow part).memOC d x = true ↔ part.memOC d x = true ∧ ∀ ps ∈ c, t.linkSat x ps)
  | [], part, _ => by simp
  | ps :: c, part, h => by
    simp only [List.foldl_cons]
    rw [memOC_foldl_narrow c _ (fun q hq => h q (List.mem_cons_of_mem _ hq)), memOC_narrow (h ps (by simp))]
    simp [and_assoc]

theorem memOC_all (d : Nat) (x : Nat → ℚ) : Rect.memOC d (fun _ => Ival.all) x = true := by
  rw [Rect.memOC_iff]; intro s _; simp [Ival.all, Ival.memOC]

/-- top-down: every leaf of a subtree has a chain, and satisfying it is descending to the leaf -/
theorem chain_leaf {t : TreeArr} {x : Nat → ℚ} {d N : Nat} : ∀ (s : BTree) (c : List (Nat × Bool)),
    Encodes t s → s.ids.Nodup → (∀ f ∈ s.vars, f < d) → (∀ n ∈ s.ids, n < t.size) → UpChain t s.id c →
    c.length + s.ids.length ≤ N → (∀ ps ∈ c, (t.feature ps.1).toNat < d) →
    ∀ ℓ ∈ s.leaves, ∃ c', UpChain t ℓ c' ∧ c'.length < N ∧ (∀ ps ∈ c', (t.feature ps.1).toNat < d) ∧
      ((∀ ps ∈ c', t.linkSat x ps) ↔ (∀ ps ∈ c, t.linkSat x ps) ∧ s.descend x = ℓ)
  | .leaf i, c, _, _, _, _, hc, hN, hf, ℓ, hℓ => by
    simp only [BTree.leaves, List.mem_singleton] at hℓ
    subst hℓ
    refine ⟨c, hc, ?_, hf, by simp [BTree.descend]⟩
    simp [BTree.ids] at hN; omega
  | .node i f thr l r, c, henc, hnd, hv, hsz, hc, hN, hf, ℓ, hℓ => by
    obtain ⟨h1, h2, h3, h4, h5, h6, h7⟩ := henc
    simp only [BTree.ids, List.nodup_cons, List.mem_append, not_or, List.nodup_append] at hnd
    have hi : i < t.size := hsz i (by simp [BTree.ids])
    have hfd : f < d := hv f (by simp [BTree.vars])
    have htn : (t.feature i).toNat = f := by rw [h4]; simp
    simp only [BTree.leaves, List.mem_append] at hℓ
    simp only [BTree.ids, List.length_cons, List.length_append] at hN
    rcases hℓ with hℓ | hℓ
    · have hch : UpChain t l.id ((i, false) :: c) := UpChain.step hc hi (by simpa [TreeArr.child] using h1)
      obtain ⟨c', k1, k2, k3, k4⟩ := chain_leaf (N := N) l ((i, false) :: c) h6 hnd.2.1
        (fun g hg => hv g (by simp [BTree.vars, hg])) (fun n hn => hsz n (by simp [BTree.ids, hn])) hch
        (by simp; omega)
        (by intro ps hps
            rcases List.mem_cons.mp hps with rfl | h
            · simpa [htn] using hfd
            · exact hf ps h) ℓ hℓ
      refine ⟨c', k1, k2, k3, k4.trans ?_⟩
      simp only [List.mem_cons, forall_eq_or_imp, BTree.descend]
      have : t.linkSat x (i, false) ↔ x f ≤ thr := by simp [TreeArr.linkSat, htn, h5]
      rw [this]
      by_cases hx : x f ≤ thr
      · simp [hx]
      · simp only [hx, false_and, if_false, false_iff, not_and]
        intro _ hd
        have := r.leaves_sub _ (r.descend_mem x)
        rw [hd] at this
        exact hnd.2.2.2 ℓ (l.leaves_sub _ hℓ) ℓ this rfl
    · have hch : UpChain t r.id ((i, true) :: c) := UpChain.step hc hi (by simpa [TreeArr.child] using h2)
      obtain ⟨c', k1, k2, k3, k4⟩ := chain_leaf (N := N) r ((i, true) :: c) h7 hnd.2.2.1
        (fun g hg => hv g (by simp [BTree.vars, hg])) (fun n hn => hsz n (by simp [BTree.ids, hn])) hch
        (by simp; omega)
        (by intro ps hps
            rcases List.mem_cons.mp hps with rfl | h
            · simpa [htn] using hfd
            · exact hf ps h) ℓ hℓ
      refine ⟨c', k1, k2, k3, k4.trans ?_⟩
      simp only [List.mem_cons, forall_eq_or_imp, BTree.descend]
      have : t.linkSat x (i, true) ↔ ¬ x f ≤ thr := by simp [TreeArr.linkSat, htn, h5]
      rw [this]
      by_cases hx : x f ≤ thr
      · simp only [hx, not_true_eq_false, false_and, if_true, false_iff, not_and]
        intro _ hd
        have := l.leaves_sub _ (l.descend_mem x)
        rw [hd] at this
        exact hnd.2.2.2 ℓ this ℓ (r.leaves_sub _ hℓ) rfl
      · simp [hx]

theorem walk_full {t : TreeArr} (x : Nat → ℚ) : ∀ (s : BTree), Encodes t s → ∀ fuel, s.height ≤ fuel →
    t.walk (full x) fuel s.id = some (s.descend x)
  | .leaf i, h, fuel, _ => by
    cases fuel <;> simp [TreeArr.walk, TreeArr.isLeaf, BTree.id_node, BTree.id_leaf, BTree.descend, h.1]
  | .node i f thr l r, h, fuel, hf => by
    obtain ⟨h1, h2, h3, h4, h5, h6, h7⟩ := h
    cases fuel with
    | zero => simp [BTree.height] at hf
    | succ k =>
      simp only [BTree.height, Nat.add_le_add_iff_right] at hf
      have hnl : t.isLeaf i = false := by simp [TreeArr.isLeaf, h1]
      by_cases hx : x f ≤ thr
      · have hn : t.next (full x) i = l.id := by simp [TreeArr.next, full, h4, h5, h1, hx]
        simp only [BTree.id_node, BTree.id_leaf, TreeArr.walk, hnl, hn, BTree.descend, hx, if_true]
        exact walk_full x l h6 k (by omega)
      · have hn : t.next (full x) i = r.id := by simp [TreeArr.next, full, h4, h5, h2, hx]
        simp only [BTree.id_node, BTree.id_leaf, TreeArr.walk, hnl, hn, BTree.descend, hx, if_false]
        exact walk_full x r h7 k (by omega)

theorem leafOf_full {t : TreeArr} {d b} (h : IsTree t d b) (x : Nat → ℚ) :
    t.leafOf (full x) = some (b.descend x) := by
  unfold TreeArr.leafOf
  have := walk_full x b h.enc t.size (by rw [← ids_length h]; exact le_of_lt b.height_lt)
  rwa [h.root] at this

theorem leafIdx_iff {t : TreeArr} {d b} (h : IsTree t d b) (n : Nat) : n ∈ t.leafIdx ↔ n ∈ b.leaves := by
  simp only [TreeArr.leafIdx, List.mem_filter, List.mem_range]
  constructor
  · rintro ⟨h1, h2⟩
    exact (encodes_leaf_iff h.enc h.nodup n ((h.all n).mpr h1)).mp h2
  · intro hn
    have h1 := b.leaves_sub n hn
    exact ⟨(h.all n).mp h1, (encodes_leaf_iff h.enc h.nodup n h1).mpr hn⟩

theorem leaf_mem_iff {t : TreeArr} {d b} (h : IsTree t d b) (x : Nat → ℚ) {ℓ : Nat} (hℓ : ℓ ∈ b.leaves) :
    (t.leafRect ℓ).memOC d x = true ↔ b.descend x = ℓ := by
  obtain ⟨c', k1, k2, k3, k4⟩ := chain_leaf (t := t) (x := x) (d := d) (N := t.size) b [] h.enc h.nodup h.vars
    (fun n hn => (h.all n).mp hn) (by rw [h.root]; exact UpChain.root) (by simp [ids_length h]) (by simp) ℓ hℓ
  unfold TreeArr.leafRect
  rw [getPartition_chain h k1 _ _ _ (by omega), memOC_foldl_narrow c' _ k3, k4]
  simp [memOC_all]

end Acv

namespace Acv

/-- descent with missing values, on the inductive tree -/
def BTree.descendObs (t : TreeArr) (x : Obs) : BTree → Nat
  | .leaf i => i
  | .node i f thr l r =>
    match x f with
    | none => if t.dflt i = l.id then l.descendObs t x else r.descendObs t x
    | some v => if v ≤ thr then l.descendObs t x else r.descendObs t x

theorem descendObs_node (t : TreeArr) (x : Obs) (i f thr l r) : (BTree.node i f thr l r).descendObs t x =
    (match x f with
    | none => if t.dflt i = l.id then l.descendObs t x else r.descendObs t x
    | some v => if v ≤ thr then l.descendObs t x else r.descendObs t x) := rfl

/-- which child is taken -/
theorem next_cases {t : TreeArr} {i f thr l r} (h : Encodes t (.node i f thr l r)) (x : Obs) :
    (t.next x i = l.id ∧ StepTo t x i l.id ∧ (BTree.node i f thr l r).descendObs t x = l.descendObs t x) ∨
    (t.next x i = r.id ∧ StepTo t x i r.id ∧ (BTree.node i f thr l r).descendObs t x = r.descendObs t x) := by
  obtain ⟨h1, h2, h3, h4, h5, h6, h7⟩ := h
  unfold TreeArr.next StepTo
  rw [h4, Int.toNat_natCast, descendObs_node]
  cases hx : x f with
  | none =>
    by_cases hd : t.dflt i = l.id
    · left; simp [hd, h1]
    · right
      have : t.dflt i = r.id := by rcases h3 with h | h <;> rw [h] <;> first | exact h2 | skip
                                   exact absurd (h.trans h1) hd
      simp only [this, h1, h2]
      rw [this] at hd
      simp [hd]
  | some v =>
    by_cases hv : v ≤ thr
    · left; simp [hv, h5, h1]
    · right; simp [hv, h5, h1, h2]; exact not_le.mp hv

theorem StepTo.unique {t : TreeArr} {x : Obs} {n m m' : Nat} (h : StepTo t x n m) (h' : StepTo t x n m') : m = m' := by
  unfold StepTo at h h'
  cases hx : x (t.feature n).toNat with
  | none => rw [hx] at h h'; simp at h h'; omega
  | some v =>
    rw [hx] at h h'
    simp only at h h'
    rcases h.2 with ⟨a, b⟩ | ⟨a, b⟩ <;> rcases h'.2 with ⟨a', b'⟩ | ⟨a', b'⟩
    · omega
    · exact absurd a (not_le.mpr a')
    · exact absurd a' (not_le.mpr a)
    · omega

theorem walk_obs {t : TreeArr} (x : Obs) : ∀ (s : BTree), Encodes t s → ∀ fuel, s.height ≤ fuel →
    t.walk x fuel s.id = some (s.descendObs t x)
  | .leaf i, h, fuel, _ => by
    cases fuel <;> simp [TreeArr.walk, TreeArr.isLeaf, BTree.id_node, BTree.id_leaf, BTree.descendObs, h.1]
  | .node i f thr l r, h, fuel, hf => by
    cases fuel with
    | zero => simp [BTree.height] at hf
    | succ k =>
      simp only [BTree.height, Nat.add_le_add_iff_right] at hf
      have hnl : t.isLeaf i = false := by simp [TreeArr.isLeaf, h.1]
      have h6 := h.2.2.2.2.2.1
      have h7 := h.2.2.2.2.2.2
      rcases next_cases h x with ⟨hn, _, hd⟩ | ⟨hn, _, hd⟩
      · rw [hd]; simp only [BTree.id_node, BTree.id_leaf, TreeArr.walk, hnl, hn]; exact walk_obs x l h6 k (by omega)
      · rw [hd]; simp only [BTree.id_node, BTree.id_leaf, TreeArr.walk, hnl, hn]; exact walk_obs x r h7 k (by omega)

theorem visits_descendObs {t : TreeArr} (x : Obs) : ∀ (s : BTree), Encodes t s →
    Visits t x s.id (s.descendObs t x) ∧ t.left (s.descendObs t x) < 0
  | .leaf i, h => ⟨Visits.refl _, h.1⟩
  | .node i f thr l r, h => by
    rcases next_cases h x with ⟨_, hs, hd⟩ | ⟨_, hs, hd⟩
    · rw [hd]; have := visits_descendObs x l h.2.2.2.2.2.1; exact ⟨Visits.step hs this.1, this.2⟩
    · rw [hd]; have := visits_descendObs x r h.2.2.2.2.2.2; exact ⟨Visits.step hs this.1, this.2⟩

theorem descendObs_full {t : TreeArr} (x : Nat → ℚ) : ∀ s : BTree, s.descendObs t (full x) = s.descend x
  | .leaf _ => rfl
  | .node i f thr l r => by
    simp only [BTree.descendObs, BTree.descend, full, descendObs_full x l, descendObs_full x r]

theorem Visits.leaf_unique {t : TreeArr} {x : Obs} {n a b : Nat} (ha : Visits t x n a) (hb : Visits t x n b)
    (la : t.left a < 0) (lb : t.left b < 0) : a = b := by
  induction ha with
  | refl n =>
    cases hb with
    | refl => rfl
    | step h _ => exact absurd h.1 (not_le.mpr la)
  | step h _ ih =>
    cases hb with
    | refl => exact absurd h.1 (not_le.mpr lb)
    | step h' hr => rw [h'.unique h] at hr; exact ih hr la

theorem endsIn_iff {t : TreeArr} {d b} (h : IsTree t d b) (x : Obs) (ℓ : Nat) :
    EndsIn t x ℓ ↔ ℓ = b.descendObs t x := by
  have hv := visits_descendObs x b h.enc
  rw [h.root] at hv
  constructor
  · rintro ⟨h1, h2⟩; exact Visits.leaf_unique h1 hv.1 h2 hv.2
  · rintro rfl; exact hv

theorem leafOf_obs {t : TreeArr} {d b} (h : IsTree t d b) (x : Obs) :
    t.leafOf x = some (b.descendObs t x) := by
  unfold TreeArr.leafOf
  have := walk_obs x b h.enc t.size (by rw [← ids_length h]; exact le_of_lt b.height_lt)
  rwa [h.root] at this

theorem descendObs_mem {t : TreeArr} (x : Obs) : ∀ s : BTree, s.descendObs t x ∈ s.leaves
  | .leaf _ => by simp [BTree.descendObs, BTree.leaves]
  | .node i f thr l r => by
    have hl := descendObs_mem (t := t) x l
    have hr := descendObs_mem (t := t) x r
    simp only [BTree.descendObs, BTree.leaves, List.mem_append]
    split <;> split <;> simp [*]

theorem visits_sub {t : TreeArr} {x : Obs} : ∀ {s : BTree}, Encodes t s → ∀ {m}, Visits t x s.id m → m ∈ s.ids
  | .leaf i, h, m, hv => by
    cases hv with
    | refl => simp [BTree.ids, BTree.id_node, BTree.id_leaf]
    | step hs _ => exact absurd hs.1 (not_le.mpr h.1)
  | .node i f thr l r, h, m, hv => by
    cases hv with
    | refl => simp [BTree.ids, BTree.id_node, BTree.id_leaf]
    | step hs hv =>
      simp only [BTree.ids, List.mem_cons, List.mem_append]
      rcases next_cases h x with ⟨_, hs', _⟩ | ⟨_, hs', _⟩
      · rw [hs.unique hs'] at hv; exact Or.inr (Or.inl (visits_sub h.2.2.2.2.2.1 hv))
      · rw [hs.unique hs'] at hv; exact Or.inr (Or.inr (visits_sub h.2.2.2.2.2.2 hv))

open Classical in
theorem bump_eq {t : TreeArr} (x : Obs) : ∀ (s : BTree), Encodes t s → s.ids.Nodup → ∀ fuel w, s.height ≤ fuel →
    ∀ j, t.bump x fuel s.id w j = w j + if Visits t x s.id j then 1 else 0
  | .leaf i, h, _, fuel, w, _, j => by
    have hl : t.isLeaf i = true := by simp [TreeArr.isLeaf, h.1]
    have hv : Visits t x i j ↔ j = i := by
      constructor
      · intro hv; simpa [BTree.ids] using visits_sub (s := .leaf i) h hv
      · rintro rfl; exact Visits.refl _
    rw [BTree.id_leaf]
    by_cases hj : j = i
    · cases fuel <;> simp [TreeArr.bump, hl, hj, Visits.refl]
    · cases fuel <;> simp [TreeArr.bump, hl, hv, hj]
  | .node i f thr l r, h, hnd, fuel, w, hf, j => by
    cases fuel with
    | zero => simp [BTree.height] at hf
    | succ k =>
      simp only [BTree.height, Nat.add_le_add_iff_right] at hf
      simp only [BTree.ids, List.nodup_cons, List.mem_append, not_or, List.nodup_append] at hnd
      have hnl : t.isLeaf i = false := by simp [TreeArr.isLeaf, h.1]
      have h6 := h.2.2.2.2.2.1
      have h7 := h.2.2.2.2.2.2
      have key : ∀ c : BTree, Encodes t c → i ∉ c.ids → StepTo t x i c.id →
          ((if j = i then w j + 1 else w j) + (if Visits t x c.id j then 1 else 0) : ℚ)
            = w j + if Visits t x i j then 1 else 0 := by
        intro c hc hi hs
        by_cases hj : j = i
        · subst hj
          have h0 : ¬ Visits t x c.id j := fun hv => hi (visits_sub hc hv)
          have h1 : Visits t x j j := Visits.refl _
          simp [h0, h1]
        · have : Visits t x i j ↔ Visits t x c.id j := by
            constructor
            · intro hv
              cases hv with
              | refl => exact absurd rfl hj
              | step hs' hv => rw [hs'.unique hs] at hv; exact hv
            · exact Visits.step hs
          simp [hj, this]
      rcases next_cases h x with ⟨hn, hs, _⟩ | ⟨hn, hs, _⟩
      · simp only [BTree.id_node, BTree.id_leaf, TreeArr.bump, hnl, hn]
        rw [if_neg (by simp), bump_eq x l h6 hnd.2.1 k _ (by omega)]
        exact key l h6 hnd.1.1 hs
      · simp only [BTree.id_node, BTree.id_leaf, TreeArr.bump, hnl, hn]
        rw [if_neg (by simp), bump_eq x r h7 hnd.2.2.1 k _ (by omega)]
        exact key r h7 hnd.1.2 hs

open Classical in
theorem updateWeights_eq {t : TreeArr} {d b} (h : IsTree t d b) : ∀ (rows : List Obs) (w : Nat → ℚ) (n : Nat),
    t.updateWeights rows w n = w n + ((rows.filter (fun x => decide (Visits t x 0 n))).length : ℚ)
  | [], w, n => by simp [TreeArr.updateWeights]
  | x :: rows, w, n => by
    have ih := updateWeights_eq h rows (t.bump x t.size 0 w) n
    unfold TreeArr.updateWeights at ih ⊢
    rw [List.foldl_cons, ih]
    have := bump_eq x b h.enc h.nodup t.size w (by rw [← ids_length h]; exact le_of_lt b.height_lt) n
    rw [h.root] at this
    rw [this]
    by_cases hv : Visits t x 0 n <;> simp [hv] <;> ring

/-! ### depth -/

theorem depthFrom_eq {t : TreeArr} : ∀ (s : BTree), Encodes t s → ∀ fuel, s.height < fuel →
    t.depthFrom fuel s.id = s.height
  | .leaf i, h, fuel, hf => by
    cases fuel with
    | zero => simp at hf
    | succ k =>
      have : ¬ (0 ≤ t.right i) := not_le.mpr h.2
      simp [TreeArr.depthFrom, BTree.height, BTree.id_node, BTree.id_leaf, this]
  | .node i f thr l r, h, fuel, hf => by
    cases fuel with
    | zero => simp at hf
    | succ k =>
      simp only [BTree.height, Nat.add_lt_add_iff_right] at hf
      simp only [TreeArr.depthFrom, BTree.id_node, BTree.id_leaf, BTree.height, h.1, h.2.1, Int.toNat_natCast]
      rw [if_pos (by simp), depthFrom_eq l h.2.2.2.2.2.1 k (by omega), depthFrom_eq r h.2.2.2.2.2.2 k (by omega)]

theorem above_height {t : TreeArr} : ∀ (s : BTree), Encodes t s → (∀ n ∈ s.ids, n < t.size) →
    (∃ ℓ, Above t s.height s.id ℓ ∧ t.left ℓ < 0) ∧ ∀ k n, Above t k s.id n → k ≤ s.height
  | .leaf i, h, hs => by
    refine ⟨⟨i, Above.refl _, h.1⟩, ?_⟩
    intro k n ha
    cases ha with
    | refl => simp
    | step hc _ => rcases hc.2 with hh | hh <;> [have := h.1; have := h.2] <;> simp only [BTree.id_node, BTree.id_leaf] at hh <;> omega
  | .node i f thr l r, h, hs => by
    obtain ⟨⟨a, ha, hal⟩, ha'⟩ := above_height l h.2.2.2.2.2.1 (fun n hn => hs n (by simp [BTree.ids, hn]))
    obtain ⟨⟨c, hc, hcl⟩, hc'⟩ := above_height r h.2.2.2.2.2.2 (fun n hn => hs n (by simp [BTree.ids, hn]))
    have hi : i < t.size := hs i (by simp [BTree.ids])
    constructor
    · simp only [BTree.height]
      rcases le_total l.height r.height with hle | hle
      · rw [max_eq_right hle]; exact ⟨c, Above.step ⟨hi, Or.inr h.2.1⟩ hc, hcl⟩
      · rw [max_eq_left hle]; exact ⟨a, Above.step ⟨hi, Or.inl h.1⟩ ha, hal⟩
    · intro k n hk
      cases hk with
      | refl => simp
      | step hcd hr =>
        simp only [BTree.height]
        rcases hcd.2 with hh | hh
        · simp only [BTree.id_node, BTree.id_leaf] at hh; rw [h.1] at hh
          have : l.id = _ := Int.natCast_inj.mp hh
          rw [← this] at hr; have := ha' _ _ hr; omega
        · simp only [BTree.id_node, BTree.id_leaf] at hh; rw [h.2.1] at hh
          have : r.id = _ := Int.natCast_inj.mp hh
          rw [← this] at hr; have := hc' _ _ hr; omega

/-! ### recorded variables -/

theorem Above.trans_step {t : TreeArr} {k p q n : Nat} (h : Above t k p q) (hc : ChildOf t q n) : Above t (k + 1) p n := by
  induction h with
  | refl => exact Above.step hc (Above.refl _)
  | step h _ ih => exact Above.step h (ih hc)

theorem UpChain.above {t : TreeArr} {n c} (h : UpChain t n c) : ∀ ps ∈ c, ∃ k, 0 < k ∧ Above t k ps.1 n := by
  induction h with
  | root => simp
  | @step p s n c hc hp hch ih =>
    have hcd : ChildOf t p n := ⟨hp, by cases s <;> simp [TreeArr.child] at hch <;> simp [hch]⟩
    intro ps hps
    rcases List.mem_cons.mp hps with rfl | hps
    · exact ⟨1, by simp, Above.step hcd (Above.refl _)⟩
    · obtain ⟨k, hk, ha⟩ := ih ps hps
      exact ⟨k + 1, by simp, ha.trans_step hcd⟩

/-- last step of an `Above` path -/
theorem Above.last {t : TreeArr} {k p n : Nat} (h : Above t (k + 1) p n) : ∃ q, Above t k p q ∧ ChildOf t q n := by
  induction k generalizing p with
  | zero =>
    cases h with
    | step hc hr => cases hr with | refl => exact ⟨p, Above.refl _, hc⟩
  | succ k ih =>
    cases h with
    | step hc hr => obtain ⟨q, h1, h2⟩ := ih hr; exact ⟨q, Above.step hc h1, h2⟩

theorem childOf_unique {t : TreeArr} {d b} (h : IsTree t d b) {p q n : Nat} (hp : ChildOf t p n) (hq : ChildOf t q n) :
    p = q := by
  have key : ∀ {p}, ChildOf t p n → ∃ s, (p, s, n) ∈ b.links := by
    rintro p ⟨hp, hh | hh⟩
    · exact ⟨false, mem_links h.enc p ((h.all p).mpr hp) false n (by simpa [TreeArr.child] using hh)⟩
    · exact ⟨true, mem_links h.enc p ((h.all p).mpr hp) true n (by simpa [TreeArr.child] using hh)⟩
  obtain ⟨s, hs⟩ := key hp
  obtain ⟨s', hs'⟩ := key hq
  exact (links_unique h.nodup hs hs').1

theorem UpChain.of_above {t : TreeArr} {d b} (h : IsTree t d b) {n c} (hc : UpChain t n c) :
    ∀ k p, 0 < k → Above t k p n → ∃ s, (p, s) ∈ c := by
  induction hc with
  | root =>
    intro k p hk ha
    cases k with
    | zero => simp at hk
    | succ k =>
      obtain ⟨q, _, hq, hh⟩ := ha.last
      rcases hh with hh | hh
      · have := mem_links h.enc q ((h.all q).mpr hq) false 0 (by simpa [TreeArr.child] using hh)
        exact absurd h.root.symm (root_not_link h.nodup this)
      · have := mem_links h.enc q ((h.all q).mpr hq) true 0 (by simpa [TreeArr.child] using hh)
        exact absurd h.root.symm (root_not_link h.nodup this)
  | @step p s n c hpc hp hch ih =>
    intro k p' hk ha
    cases k with
    | zero => simp at hk
    | succ k =>
      obtain ⟨q, ha', hq⟩ := ha.last
      have hcd : ChildOf t p n := ⟨hp, by cases s <;> simp [TreeArr.child] at hch <;> simp [hch]⟩
      have hqp : q = p := childOf_unique h hq hcd
      subst hqp
      cases k with
      | zero => cases ha' with | refl => exact ⟨s, by simp⟩
      | succ k => obtain ⟨s', hs'⟩ := ih (k + 1) p' (by simp) ha'; exact ⟨s', by simp [hs']⟩

/-- the chain of a leaf -/
theorem leaf_chain {t : TreeArr} {d b} (h : IsTree t d b) {ℓ : Nat} (hℓ : ℓ ∈ b.leaves) :
    ∃ c, UpChain t ℓ c ∧ c.length < t.size ∧ (∀ ps ∈ c, (t.feature ps.1).toNat < d) := by
  obtain ⟨c', k1, k2, k3, _⟩ := chain_leaf (t := t) (x := fun _ => 0) (d := d) (N := t.size) b [] h.enc h.nodup h.vars
    (fun n hn => (h.all n).mp hn) (by rw [h.root]; exact UpChain.root) (by simp [ids_length h]) (by simp) ℓ hℓ
  exact ⟨c', k1, k2, k3⟩

theorem leafVars_iff {t : TreeArr} {d b} (h : IsTree t d b) {ℓ : Nat} (hℓ : ℓ ∈ b.leaves) (f : Int) :
    f ∈ t.leafVars ℓ ↔ ∃ k p, 0 < k ∧ Above t k p ℓ ∧ t.feature p = f := by
  obtain ⟨c, hc, hl, _⟩ := leaf_chain h hℓ
  unfold TreeArr.leafVars
  rw [getPartition_chain h hc _ _ _ (by omega)]
  simp only [List.cons_append, List.nil_append, List.drop_succ_cons, List.drop_zero, List.mem_dedup, List.mem_map]
  constructor
  · rintro ⟨ps, hps, rfl⟩
    obtain ⟨k, hk, ha⟩ := hc.above ps hps
    exact ⟨k, ps.1, hk, ha, rfl⟩
  · rintro ⟨k, p, hk, ha, rfl⟩
    obtain ⟨s, hs⟩ := hc.of_above h k p hk ha
    exact ⟨(p, s), hs, rfl⟩

theorem leaf_children {t : TreeArr} {p : Nat} : ∀ {b : BTree}, Encodes t b → p ∈ b.leaves → t.left p < 0 ∧ t.right p < 0
  | .leaf i, he, hm => by simp only [BTree.leaves, List.mem_singleton] at hm; rw [hm]; exact he
  | .node i f thr l r, he, hm => by
    simp only [BTree.leaves, List.mem_append] at hm
    rcases hm with hm | hm
    · exact leaf_children he.2.2.2.2.2.1 hm
    · exact leaf_children he.2.2.2.2.2.2 hm

theorem feature_nonneg {t : TreeArr} : ∀ {b : BTree}, Encodes t b → ∀ p ∈ b.ids, 0 ≤ t.left p → 0 ≤ t.feature p
  | .leaf i, h, p, hp, hl => by
    simp only [BTree.ids, List.mem_singleton] at hp; subst hp; exact absurd hl (not_le.mpr h.1)
  | .node i f thr l r, h, p, hp, hl => by
    simp only [BTree.ids, List.mem_cons, List.mem_append] at hp
    rcases hp with rfl | hp | hp
    · rw [h.2.2.2.1]; simp
    · exact feature_nonneg h.2.2.2.2.2.1 p hp hl
    · exact feature_nonneg h.2.2.2.2.2.2 p hp hl

/-- the rectangle of a leaf only constrains the recorded variables -/
theorem leafRect_unconstrained {t : TreeArr} {d b} (h : IsTree t d b) {ℓ : Nat} (hℓ : ℓ ∈ b.leaves) (j : Nat)
    (hj : (j : Int) ∉ t.leafVars ℓ) : t.leafRect ℓ j = Ival.all := by
  obtain ⟨c, hc, hl, hfd⟩ := leaf_chain h hℓ
  have hmem : ∀ ps ∈ c, (t.feature ps.1).toNat ≠ j := by
    intro ps hps he
    apply hj
    unfold TreeArr.leafVars
    rw [getPartition_chain h hc _ _ _ (by omega)]
    simp only [List.cons_append, List.nil_append, List.drop_succ_cons, List.drop_zero, List.mem_dedup, List.mem_map]
    refine ⟨ps, hps, ?_⟩
    have hcd : ∃ s n, t.child s ps.1 = ((n : Nat) : Int) ∧ ps.1 < t.size := by
      clear hl hj hℓ hfd
      induction hc with
      | root => simp at hps
      | step _ h1 h2 ih =>
        rcases List.mem_cons.mp hps with rfl | hps
        · exact ⟨_, _, h2, h1⟩
        · exact ih hps
    obtain ⟨s, n, h1, h2⟩ := hcd
    have hlk := mem_links h.enc ps.1 ((h.all _).mpr h2) s n h1
    have : 0 ≤ t.left ps.1 := by
      by_contra hneg
      have hleaf := (encodes_leaf_iff h.enc h.nodup ps.1 ((h.all _).mpr h2)).mp (by simpa [TreeArr.isLeaf] using hneg)
      have hr : ∀ {b : BTree}, Encodes t b → ps.1 ∈ b.leaves → t.left ps.1 < 0 ∧ t.right ps.1 < 0 := by
        intro b
        induction b with
        | leaf i => intro he hm; simp only [BTree.leaves, List.mem_singleton] at hm; rw [hm]; exact he
        | node i f thr l r ihl ihr =>
          intro he hm
          simp only [BTree.leaves, List.mem_append] at hm
          rcases hm with hm | hm
          · exact ihl he.2.2.2.2.2.1 hm
          · exact ihr he.2.2.2.2.2.2 hm
      have := hr h.enc hleaf
      cases s <;> simp [TreeArr.child] at h1 <;> omega
    have hf := feature_nonneg h.enc ps.1 ((h.all _).mpr h2) this
    omega
  unfold TreeArr.leafRect
  rw [getPartition_chain h hc _ _ _ (by omega)]
  have : ∀ (c : List (Nat × Bool)) (part : Rect), (∀ ps ∈ c, (t.feature ps.1).toNat ≠ j) →
      c.foldl t.narrow part j = part j := by
    intro c
    induction c with
    | nil => simp
    | cons ps c ih =>
      intro part hh
      rw [List.foldl_cons, ih _ (fun q hq => hh q (by simp [hq]))]
      have := hh ps (by simp)
      simp [TreeArr.narrow, Rect.set, Ne.symm this]
  exact this c _ hmem

/-! ### packing -/

theorem le_foldl_max (l : List Nat) (a : Nat) : a ≤ l.foldl max a ∧ ∀ x ∈ l, x ≤ l.foldl max a := by
  induction l generalizing a with
  | nil => simp
  | cons y l ih =>
    simp only [List.foldl_cons, List.mem_cons, forall_eq_or_imp]
    have := ih (max a y)
    refine ⟨le_trans (le_max_left _ _) this.1, le_trans (le_max_right _ _) this.1, this.2⟩

theorem size_le_maxNodes {ts : List TreeArr} {t} (h : t ∈ ts) : t.size ≤ maxNodes ts :=
  (le_foldl_max _ 0).2 _ (List.mem_map.mpr ⟨t, h, rfl⟩)

theorem pack_cell {ts : List TreeArr} {j : Nat} (hj : j < ts.length) {n : Nat} (hn : n < (ts[j]).size) :
    (j * maxNodes ts + n) / maxNodes ts = j ∧ (j * maxNodes ts + n) % maxNodes ts = n := by
  have hm : n < maxNodes ts := lt_of_lt_of_le hn (size_le_maxNodes (List.getElem_mem hj))
  have h0 : 0 < maxNodes ts := by omega
  constructor
  · rw [Nat.mul_comm, Nat.mul_add_div h0, Nat.div_eq_of_lt hm, Nat.add_zero]
  · rw [Nat.mul_comm, Nat.mul_add_mod, Nat.mod_eq_of_lt hm]

theorem pack_walk {ts : List TreeArr} {j : Nat} (hj : j < ts.length) (x : Obs) : ∀ (s : BTree), Encodes ts[j] s →
    (∀ n ∈ s.ids, n < (ts[j]).size) → ∀ fuel, s.height ≤ fuel →
    (pack ts).walk x (j * maxNodes ts) fuel s.id = some (j * maxNodes ts + s.descendObs ts[j] x)
  | .leaf i, h, hs, fuel, _ => by
    have hi : i < (ts[j]).size := hs i (by simp [BTree.ids])
    have hc := pack_cell hj hi
    have hl : (pack ts).left (j * maxNodes ts + i) = (ts[j]).left i := by
      simp [pack, hc.1, hc.2, hj, hi]
    cases fuel <;> simp [Packed.walk, hl, h.1, BTree.descendObs]
  | .node i f thr l r, h, hs, fuel, hf => by
    have hi : i < (ts[j]).size := hs i (by simp [BTree.ids])
    have hc := pack_cell hj hi
    have e1 : (pack ts).left (j * maxNodes ts + i) = (ts[j]).left i := by simp [pack, hc.1, hc.2, hj, hi]
    have e2 : (pack ts).right (j * maxNodes ts + i) = (ts[j]).right i := by simp [pack, hc.1, hc.2, hj, hi]
    have e3 : (pack ts).dflt (j * maxNodes ts + i) = (ts[j]).dflt i := by simp [pack, hc.1, hc.2, hj, hi]
    have e4 : (pack ts).feature (j * maxNodes ts + i) = (ts[j]).feature i := by simp [pack, hc.1, hc.2, hj, hi]
    have e5 : (pack ts).threshold (j * maxNodes ts + i) = (ts[j]).threshold i := by simp [pack, hc.1, hc.2, hj, hi]
    cases fuel with
    | zero => simp [BTree.height] at hf
    | succ k =>
      simp only [BTree.height, Nat.add_le_add_iff_right] at hf
      have hstep : (pack ts).walk x (j * maxNodes ts) (k + 1) i
          = (pack ts).walk x (j * maxNodes ts) k ((ts[j]).next x i) := by
        have hnl : ¬ ((ts[j]).left i < 0) := by rw [h.1]; simp
        simp only [Packed.walk, e1, e2, e3, e4, e5, hnl, if_false]
        rfl
      rw [BTree.id_node, hstep]
      rcases next_cases h x with ⟨hn, _, hd⟩ | ⟨hn, _, hd⟩
      · rw [hn, hd]
        exact pack_walk hj x l h.2.2.2.2.2.1 (fun n hn => hs n (by simp [BTree.ids, hn])) k (by omega)
      · rw [hn, hd]
        exact pack_walk hj x r h.2.2.2.2.2.2 (fun n hn => hs n (by simp [BTree.ids, hn])) k (by omega)

end Acv

namespace Acv

theorem Ival.memOC_iff (i : Ival) (v : ℚ) :
    i.memOC v = true ↔ (∀ l, i.lo = some l → l < v) ∧ (∀ h, i.hi = some h → v ≤ h) := by
  rcases i with ⟨_ | l, _ | h⟩ <;> simp [Ival.memOC, and_comm]

theorem inBox_iff {d : Nat} {p : Rect} {x : Nat → ℚ} : p.memOC d x = true ↔ InBox d p x := by
  rw [Rect.memOC_iff]
  exact forall₂_congr fun j _ => Ival.memOC_iff _ _

end Acv

namespace Acv

/-- a descent that passes an internal node passes exactly one of its children, and conversely -/
theorem visits_children_aux {t : TreeArr} {x : Obs} : ∀ {s : BTree}, Encodes t s → s.ids.Nodup → ∀ n ∈ s.ids, 0 ≤ t.left n →
    (Visits t x s.id n ↔ (Visits t x s.id (t.left n).toNat ∨ Visits t x s.id (t.right n).toNat)) ∧
      ¬ (Visits t x s.id (t.left n).toNat ∧ Visits t x s.id (t.right n).toNat)
  | .leaf i, h, _, n, hn, hl => by
    simp only [BTree.ids, List.mem_singleton] at hn; subst hn; exact absurd hl (not_le.mpr h.1)
  | .node i f thr l r, h, hnd, n, hn, hl => by
    have hnd' := hnd
    simp only [BTree.ids, List.nodup_cons, List.mem_append, not_or, List.nodup_append] at hnd'
    obtain ⟨⟨n1, n2⟩, n3, n4, n5⟩ := hnd'
    have h6 := h.2.2.2.2.2.1
    have h7 := h.2.2.2.2.2.2
    -- visiting from the node, for a target in a strict subtree
    have hvis : ∀ m, m ≠ i → ∀ c : BTree, StepTo t x i c.id → (Visits t x i m ↔ Visits t x c.id m) := by
      intro m hm c hs
      constructor
      · intro hv
        cases hv with
        | refl => exact absurd rfl hm
        | step hs' hv => rw [hs'.unique hs] at hv; exact hv
      · exact Visits.step hs
    have hlid : l.id ∈ l.ids := l.id_mem_ids
    have hrid : r.id ∈ r.ids := r.id_mem_ids
    rw [BTree.id_node]
    have hstep : StepTo t x i l.id ∨ StepTo t x i r.id := by
      rcases next_cases h x with ⟨_, hs, _⟩ | ⟨_, hs, _⟩
      · exact Or.inl hs
      · exact Or.inr hs
    by_cases hni : n = i
    · subst hni
      rw [h.1, h.2.1, Int.toNat_natCast, Int.toNat_natCast]
      have hl1 : l.id ≠ n := fun e => n1 (e ▸ hlid)
      have hr1 : r.id ≠ n := fun e => n2 (e ▸ hrid)
      rcases hstep with hs | hs
      · rw [hvis _ hl1 l hs, hvis _ hr1 l hs]
        have : ¬ Visits t x l.id r.id := fun hv => n5 _ (visits_sub h6 hv) _ hrid rfl
        simp [this, Visits.refl]
      · rw [hvis _ hl1 r hs, hvis _ hr1 r hs]
        have : ¬ Visits t x r.id l.id := fun hv => n5 _ hlid _ (visits_sub h7 hv) rfl
        simp [this, Visits.refl]
    · -- children of n lie in the same subtree as n
      have hchild : ∀ c : BTree, Encodes t c → n ∈ c.ids → (t.left n).toNat ∈ c.ids ∧ (t.right n).toNat ∈ c.ids := by
        intro c
        induction c with
        | leaf j => intro he hm; simp only [BTree.ids, List.mem_singleton] at hm; subst hm; exact absurd hl (not_le.mpr he.1)
        | node j g u a b iha ihb =>
          intro he hm
          simp only [BTree.ids, List.mem_cons, List.mem_append] at hm ⊢
          rcases hm with rfl | hm | hm
          · rw [he.1, he.2.1, Int.toNat_natCast, Int.toNat_natCast]
            exact ⟨Or.inr (Or.inl a.id_mem_ids), Or.inr (Or.inr b.id_mem_ids)⟩
          · have := iha he.2.2.2.2.2.1 hm; exact ⟨Or.inr (Or.inl this.1), Or.inr (Or.inl this.2)⟩
          · have := ihb he.2.2.2.2.2.2 hm; exact ⟨Or.inr (Or.inr this.1), Or.inr (Or.inr this.2)⟩
      simp only [BTree.ids, List.mem_cons, List.mem_append] at hn
      have main : ∀ c o : BTree, Encodes t c → c.ids.Nodup → Encodes t o → i ∉ c.ids → (∀ a ∈ c.ids, a ∉ o.ids) →
          n ∈ c.ids → (StepTo t x i c.id ∨ StepTo t x i o.id) →
          ((Visits t x c.id n ↔ (Visits t x c.id (t.left n).toNat ∨ Visits t x c.id (t.right n).toNat)) ∧
            ¬ (Visits t x c.id (t.left n).toNat ∧ Visits t x c.id (t.right n).toNat)) →
          (Visits t x i n ↔ (Visits t x i (t.left n).toNat ∨ Visits t x i (t.right n).toNat)) ∧
            ¬ (Visits t x i (t.left n).toNat ∧ Visits t x i (t.right n).toNat) := by
        intro c o hc hcn ho hic hdis hnc hst ih
        obtain ⟨m1, m2⟩ := hchild c hc hnc
        have e1 : (t.left n).toNat ≠ i := fun e => hic (e ▸ m1)
        have e2 : (t.right n).toNat ≠ i := fun e => hic (e ▸ m2)
        rcases hst with hs | hs
        · rw [hvis _ hni c hs, hvis _ e1 c hs, hvis _ e2 c hs]; exact ih
        · rw [hvis _ hni o hs, hvis _ e1 o hs, hvis _ e2 o hs]
          have f0 : ¬ Visits t x o.id n := fun hv => hdis _ hnc (visits_sub ho hv)
          have f1 : ¬ Visits t x o.id (t.left n).toNat := fun hv => hdis _ m1 (visits_sub ho hv)
          have f2 : ¬ Visits t x o.id (t.right n).toNat := fun hv => hdis _ m2 (visits_sub ho hv)
          simp [f0, f1, f2]
      rcases hn with rfl | hn | hn
      · exact absurd rfl hni
      · exact main l r h6 n3 h7 n1 (fun a ha hb => n5 a ha a hb rfl) hn hstep (visits_children_aux h6 n3 n hn hl)
      · exact main r l h7 n4 h6 n2 (fun a ha hb => n5 a hb a ha rfl) hn hstep.symm (visits_children_aux h7 n4 n hn hl)

theorem visits_children {t : TreeArr} {d b} (h : IsTree t d b) {n : Nat} (hn : n < t.size) (hl : 0 ≤ t.left n) (x : Obs) :
    (Visits t x 0 n ↔ (Visits t x 0 (t.left n).toNat ∨ Visits t x 0 (t.right n).toNat)) ∧
      ¬ (Visits t x 0 (t.left n).toNat ∧ Visits t x 0 (t.right n).toNat) := by
  have := visits_children_aux (x := x) h.enc h.nodup n ((h.all n).mpr hn) hl
  rwa [h.root] at this

end Acv
