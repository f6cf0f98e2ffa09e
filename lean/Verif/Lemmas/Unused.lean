import Verif.Spec.Unused
import Verif.Lemmas.LeafShap
import Verif.Lemmas.ProjCell
import Verif.Lemmas.Cdp
import Verif.Model.SdpReg

/-! # Lemmas for columns that a model does not use (C118) -/

namespace Acv

/-! ## Rectangles -/

variable {U : Nat → Prop}

theorem sat_used {r : Rect} (hr : ∀ j, ¬ U j → r j = Ival.all) {S S' : List Nat} (hS : ∀ j, U j → (j ∈ S' ↔ j ∈ S)) {z z' : Row}
    (hz : ∀ j, U j → z' j = z j) : sat r S' z' = sat r S z := by
  rw [Bool.eq_iff_iff]
  unfold sat
  simp only [List.all_eq_true]
  constructor
  · intro h j hj
    by_cases hu : U j
    · rw [← hz j hu]; exact h j ((hS j hu).2 hj)
    · rw [hr j hu]; simp [Ival.memOC, Ival.all]
  · intro h j hj
    by_cases hu : U j
    · rw [hz j hu]; exact h j ((hS j hu).1 hj)
    · rw [hr j hu]; simp [Ival.memOC, Ival.all]

theorem satCC_used {r : Rect} (hr : ∀ j, ¬ U j → r j = Ival.all) {S S' : List Nat} (hS : ∀ j, U j → (j ∈ S' ↔ j ∈ S)) {z z' : Row}
    (hz : ∀ j, U j → z' j = z j) : satCC r S' z' = satCC r S z := by
  rw [Bool.eq_iff_iff]
  unfold satCC
  simp only [List.all_eq_true]
  constructor
  · intro h j hj
    by_cases hu : U j
    · rw [← hz j hu]; exact h j ((hS j hu).2 hj)
    · rw [hr j hu]; simp [Ival.memCC, Ival.all]
  · intro h j hj
    by_cases hu : U j
    · rw [hz j hu]; exact h j ((hS j hu).1 hj)
    · rw [hr j hu]; simp [Ival.memCC, Ival.all]

theorem forall₂_filter {R : Row → Row → Prop} {p p' : Row → Bool} (hp : ∀ z z', R z z' → p' z' = p z) : ∀ {d d' : List Row},
    List.Forall₂ R d d' → List.Forall₂ R (d.filter p) (d'.filter p')
  | _, _, .nil => .nil
  | _, _, .cons (a := z) (b := z') h hs => by
    rw [List.filter_cons, List.filter_cons, hp z z' h]
    cases p z
    · exact forall₂_filter hp hs
    · exact .cons h (forall₂_filter hp hs)

theorem forall₂_count {R : Row → Row → Prop} {p p' : Row → Bool} (hp : ∀ z z', R z z' → p' z' = p z) {d d' : List Row}
    (h : List.Forall₂ R d d') : (d'.filter p').length = (d.filter p).length := (forall₂_filter hp h).length_eq.symm

theorem cnt_used {r : Rect} (hr : ∀ j, ¬ U j → r j = Ival.all) {S S' : List Nat} (hS : ∀ j, U j → (j ∈ S' ↔ j ∈ S)) {d d' : List Row}
    (hd : List.Forall₂ (fun z z' => ∀ j, U j → z' j = z j) d d') : cnt d' r S' = cnt d r S :=
  forall₂_count (fun _ _ hz => sat_used hr hS hz) hd

theorem cntCC_used {r : Rect} (hr : ∀ j, ¬ U j → r j = Ival.all) {S S' : List Nat} (hS : ∀ j, U j → (j ∈ S' ↔ j ∈ S)) {d d' : List Row}
    (hd : List.Forall₂ (fun z z' => ∀ j, U j → z' j = z j) d d') : cntCC d' r S' = cntCC d r S :=
  forall₂_count (fun _ _ hz => satCC_used hr hS hz) hd

theorem cntCC2_used {r q : Rect} (hr : ∀ j, ¬ U j → r j = Ival.all) (hq : ∀ j, ¬ U j → q j = Ival.all) {S S' : List Nat}
    (hS : ∀ j, U j → (j ∈ S' ↔ j ∈ S)) {d d' : List Row}
    (hd : List.Forall₂ (fun z z' => ∀ j, U j → z' j = z j) d d') : cntCC2 d' r q S' = cntCC2 d r q S :=
  forall₂_count (fun _ _ hz => by rw [satCC_used hr hS hz, satCC_used hq hS hz]) hd

theorem leafRect_unused {ts : List TreeArr} {m : Nat} (hw : ∀ t ∈ ts, WellFormed t m) {t : TreeArr} (ht : t ∈ ts) {ℓ : Nat}
    (hℓ : ℓ ∈ t.leafIdx) (j : Nat) (hj : ¬ UsesColumn ts j) : t.leafRect ℓ j = Ival.all := by
  refine (leafCols_spec (hw t ht) hℓ).2.2 j fun hmem => hj ?_
  obtain ⟨f, hf, rfl⟩ := List.mem_map.1 hmem
  obtain ⟨b, hb⟩ := hw t ht
  obtain ⟨k, p, hk, ha, rfl⟩ := (leafVars_iff hb ((leafIdx_iff hb _).1 hℓ) f).1 hf
  obtain ⟨h1, h2, h3⟩ := above_internal (hw t ht) hk ha
  exact ⟨t, ht, p, h1, h2, by omega⟩

theorem usesColumn_lt {ts : List TreeArr} {m : Nat} (hw : ∀ t ∈ ts, WellFormed t m) {j : Nat} (hj : UsesColumn ts j) : j < m := by
  obtain ⟨t, ht, n, hn, hl, hf⟩ := hj
  obtain ⟨b, hb⟩ := hw t ht
  have key : ∀ {b : BTree}, Encodes t b → n ∈ b.ids → (∀ f ∈ b.vars, f < m) → j < m := by
    intro b
    induction b with
    | leaf i =>
      intro he hn _
      simp only [BTree.ids, List.mem_singleton] at hn
      subst hn
      exact absurd hl (not_le.2 he.1)
    | node i f thr l r ihl ihr =>
      intro he hn hv
      obtain ⟨_, _, _, h4, _, h6, h7⟩ := he
      simp only [BTree.ids, List.mem_cons, List.mem_append] at hn
      simp only [BTree.vars, List.mem_cons, List.mem_append] at hv
      rcases hn with rfl | hn | hn
      · have := hv f (Or.inl rfl)
        omega
      · exact ihl h6 hn fun f hf => hv f (Or.inr (Or.inl hf))
      · exact ihr h7 hn fun f hf => hv f (Or.inr (Or.inr hf))
  exact key hb.enc ((hb.all n).2 hn) hb.vars

theorem wellFormed_mono {t : TreeArr} {m m' : Nat} (h : WellFormed t m) (hm : m ≤ m') : WellFormed t m' := by
  obtain ⟨b, hb⟩ := h
  exact ⟨b, hb.root, hb.enc, hb.nodup, hb.all, fun f hf => (hb.vars f hf).trans_le hm⟩

/-! ## Walks of the projected forest -/

/-- The nodes that a walk can read. -/
structure ClosedUnder (mem : Mem) (Q : Int → Prop) : Prop where
  root : Q 0
  left : ∀ n, Q n → Q (mem.lc n)
  right : ∀ n, Q n → Q (mem.rc n)

theorem visitD_child {mem : Mem} {Q : Int → Prop} (hQ : ClosedUnder mem Q) {push : List Int → Int → List Int}
    (hpush : ∀ l a c, c ∈ push l a ↔ c = a ∨ c ∈ l) (dir : Int → ℚ → Option Bool) (data : Nat → Row) {n : Int} (hn : Q n) {st : PState}
    (hst : ∀ c ∈ st.child, Q c) : ∀ c ∈ (mem.visitD push dir data n st).child, Q c := by
  intro c hc
  unfold Mem.visitD at hc
  split at hc
  · rcases (hpush _ _ _).1 hc with rfl | hc
    · exact hQ.left n hn
    · exact hst c hc
  · rcases (hpush _ _ _).1 hc with rfl | hc
    · exact hQ.right n hn
    · exact hst c hc
  · rcases (hpush _ _ _).1 hc with rfl | hc
    · exact hQ.right n hn
    · rcases (hpush _ _ _).1 hc with rfl | hc
      · exact hQ.left n hn
      · exact hst c hc

/-- Decisions and data that agree on the nodes of `Q`. -/
def AgreeAt (mem : Mem) (Q : Int → Prop) (dir dir' : Int → ℚ → Option Bool) (data data' : Nat → Row) : Prop :=
  ∀ n, Q n → dir' (mem.feat n) (mem.thr n) = dir (mem.feat n) (mem.thr n) ∧
    (dir (mem.feat n) (mem.thr n) ≠ none → ∀ i, data' i (mem.feat n).toNat = data i (mem.feat n).toNat)

theorem visitD_agree {mem : Mem} {Q : Int → Prop} {dir dir' : Int → ℚ → Option Bool} {data data' : Nat → Row}
    (h : AgreeAt mem Q dir dir' data data') (push : List Int → Int → List Int) {n : Int} (hn : Q n) (st : PState) :
    mem.visitD push dir' data' n st = mem.visitD push dir data n st := by
  obtain ⟨h1, h2⟩ := h n hn
  unfold Mem.visitD
  rw [h1]
  cases hd : dir (mem.feat n) (mem.thr n) with
  | none => rfl
  | some b =>
    have h3 := h2 (by rw [hd]; simp)
    cases b <;> simp only [h3]

theorem scanD_agree {mem : Mem} {Q : Int → Prop} (hQ : ClosedUnder mem Q) {dir dir' : Int → ℚ → Option Bool} {data data' : Nat → Row}
    (h : AgreeAt mem Q dir dir' data data') {push : List Int → Int → List Int} (hpush : ∀ l a c, c ∈ push l a ↔ c = a ∨ c ∈ l)
    (minSize : Nat) : ∀ (ns : List Int) (st : PState), (∀ n ∈ ns, Q n) → (∀ c ∈ st.child, Q c) →
    mem.scanD push dir' data' minSize ns st = mem.scanD push dir data minSize ns st ∧
      ∀ c ∈ (mem.scanD push dir data minSize ns st).child, Q c
  | [], _, _, hst => ⟨rfl, hst⟩
  | n :: ns, st, hns, hst => by
    have hn := hns n (by simp)
    have hc := visitD_child hQ hpush dir data hn hst
    unfold Mem.scanD
    simp only [visitD_agree h push hn]
    split
    · exact ⟨rfl, hc⟩
    · exact scanD_agree hQ h hpush minSize ns _ (fun n hn => hns n (by simp [hn])) hc

theorem levelsD_agree {mem : Mem} {Q : Int → Prop} (hQ : ClosedUnder mem Q) {dir dir' : Int → ℚ → Option Bool} {data data' : Nat → Row}
    (h : AgreeAt mem Q dir dir' data data') {push : List Int → Int → List Int} (hpush : ∀ l a c, c ∈ push l a ↔ c = a ∨ c ∈ l)
    (minSize : Nat) : ∀ (k : Nat) (ns : List Int) (st : PState), (∀ n ∈ ns, Q n) → (∀ c ∈ st.child, Q c) →
    mem.levelsD push dir' data' minSize k ns st = mem.levelsD push dir data minSize k ns st
  | 0, _, _, _, _ => rfl
  | k + 1, ns, st, hns, hst => by
    obtain ⟨h1, h2⟩ := scanD_agree hQ h hpush minSize ns st hns hst
    unfold Mem.levelsD
    simp only [h1]
    exact levelsD_agree hQ h hpush minSize k _ _ h2 h2

theorem forestRunD_agree {dir dir' : Int → ℚ → Option Bool} {data data' : Nat → Row} {push : List Int → Int → List Int}
    (hpush : ∀ l a c, c ∈ push l a ↔ c = a ∨ c ∈ l) (minSize maxDepth N : Nat) : ∀ (mems : List Mem) (r : Rule),
    (∀ mem ∈ mems, ∃ Q, ClosedUnder mem Q ∧ AgreeAt mem Q dir dir' data data') →
    forestRunD push dir' data' minSize maxDepth N mems r = forestRunD push dir data minSize maxDepth N mems r
  | [], _, _ => rfl
  | mem :: mems, r, h => by
    obtain ⟨Q, hQ, ha⟩ := h mem (by simp)
    have h1 := levelsD_agree hQ ha hpush minSize maxDepth [0] ⟨[], List.range N, r⟩ (by simpa using hQ.root) (by simp)
    unfold forestRunD Mem.runD
    simp only [h1]
    rw [forestRunD_agree hpush minSize maxDepth N mems _ fun mem hm => h mem (by simp [hm])]

/-- The rule keeps the bounds of a column that is not tested on the nodes of `Q`. -/
theorem levelsD_rule {mem : Mem} {Q : Int → Prop} (hQ : ClosedUnder mem Q) {dir : Int → ℚ → Option Bool} {data : Nat → Row}
    {push : List Int → Int → List Int} (hpush : ∀ l a c, c ∈ push l a ↔ c = a ∨ c ∈ l) {u : Nat}
    (hu : ∀ n, Q n → dir (mem.feat n) (mem.thr n) ≠ none → (mem.feat n).toNat ≠ u) (minSize : Nat) :
    ∀ (k : Nat) (ns : List Int) (st : PState), (∀ n ∈ ns, Q n) → (∀ c ∈ st.child, Q c) →
    (mem.levelsD push dir data minSize k ns st).rule u = st.rule u := by
  have hv : ∀ n, Q n → ∀ st : PState, (mem.visitD push dir data n st).rule u = st.rule u := by
    intro n hn st
    unfold Mem.visitD
    split
    · rename_i hd
      have := hu n hn (by rw [hd]; simp)
      simp [Rule.below, this.symm]
    · rename_i hd
      have := hu n hn (by rw [hd]; simp)
      simp [Rule.above, this.symm]
    · rfl
  have hs : ∀ (ns : List Int) (st : PState), (∀ n ∈ ns, Q n) → (∀ c ∈ st.child, Q c) →
      (mem.scanD push dir data minSize ns st).rule u = st.rule u := by
    intro ns
    induction ns with
    | nil => intro st _ _; rfl
    | cons n ns ih =>
      intro st hns hst
      have hn := hns n (by simp)
      unfold Mem.scanD
      simp only
      split
      · exact hv n hn st
      · rw [ih _ (fun n hn => hns n (by simp [hn])) (visitD_child hQ hpush dir data hn hst), hv n hn st]
  intro k
  induction k with
  | zero => intro ns st _ _; rfl
  | succ k ih =>
    intro ns st hns hst
    have h2 := (scanD_agree (dir' := dir) (data' := data) hQ (fun _ _ => ⟨rfl, fun _ _ => rfl⟩) hpush minSize ns st hns hst).2
    unfold Mem.levelsD
    simp only
    rw [ih _ _ h2 h2, hs ns st hns hst]

theorem forestRunD_rule {dir : Int → ℚ → Option Bool} {data : Nat → Row} {push : List Int → Int → List Int}
    (hpush : ∀ l a c, c ∈ push l a ↔ c = a ∨ c ∈ l) (minSize maxDepth N : Nat) {u : Nat} : ∀ (mems : List Mem) (r : Rule),
    (∀ mem ∈ mems, ∃ Q, ClosedUnder mem Q ∧ ∀ n, Q n → dir (mem.feat n) (mem.thr n) ≠ none → (mem.feat n).toNat ≠ u) →
    (forestRunD push dir data minSize maxDepth N mems r).2 u = r u
  | [], _, _ => rfl
  | mem :: mems, r, h => by
    obtain ⟨Q, hQ, ha⟩ := h mem (by simp)
    have h1 := levelsD_rule (data := data) hQ hpush ha minSize maxDepth [0] ⟨[], List.range N, r⟩ (by simpa using hQ.root) (by simp)
    unfold forestRunD Mem.runD
    simp only
    rw [forestRunD_rule hpush minSize maxDepth N mems _ fun mem hm => h mem (by simp [hm])]
    exact h1

theorem encodes_right {t : TreeArr} : ∀ {b : BTree}, Encodes t b → ∀ n ∈ b.ids, 0 ≤ t.left n → 0 ≤ t.right n
  | .leaf i, h, n, hn, hl => by
    simp only [BTree.ids, List.mem_singleton] at hn
    subst hn
    exact absurd hl (not_le.2 h.1)
  | .node i f thr l r, h, n, hn, hl => by
    obtain ⟨_, h2, _, _, _, h6, h7⟩ := h
    simp only [BTree.ids, List.mem_cons, List.mem_append] at hn
    rcases hn with rfl | hn | hn
    · rw [h2]; exact Int.natCast_nonneg _
    · exact encodes_right h6 n hn hl
    · exact encodes_right h7 n hn hl

/-- The nodes of a stored tree and the cell before it. -/
def treeNodes (t : TreeArr) (n : Int) : Prop := n = -1 ∨ (0 ≤ n ∧ n < t.size)

theorem closed_stored {m : Nat} {t : TreeArr} {mem : Mem} (h : TreeStored m t mem) : ClosedUnder mem (treeNodes t) := by
  obtain ⟨b, hb⟩ := h.wf
  have hchild : ∀ (s : Bool) (n c : Nat), n < t.size → t.child s n = (c : Int) → c < t.size := by
    intro s n c hn hc
    have := mem_links hb.enc n ((hb.all n).2 hn) s c hc
    refine (hb.all c).1 ((b.ids_perm.mem_iff).2 (List.mem_cons_of_mem _ (List.mem_map.2 ⟨_, this, rfl⟩)))
  have h0 : 0 < t.size := (hb.all 0).1 (hb.root ▸ b.id_mem_ids)
  have key : ∀ n, treeNodes t n → treeNodes t (mem.lc n) ∧ treeNodes t (mem.rc n) := by
    rintro n (rfl | ⟨hn0, hn⟩)
    · rw [h.before.2.1, h.before.2.2]
      exact ⟨Or.inl rfl, Or.inl rfl⟩
    · lift n to Nat using hn0
      have hn' : n < t.size := by exact_mod_cast hn
      obtain ⟨_, _, hl, hr⟩ := h.holds n hn'
      rw [hl, hr]
      rcases lt_or_ge (t.left n) 0 with hneg | hpos
      · obtain ⟨e1, e2⟩ := h.leafChildren n hn' hneg
        exact ⟨Or.inl e1, Or.inl e2⟩
      · have hposr := encodes_right hb.enc n ((hb.all n).2 hn') hpos
        refine ⟨Or.inr ⟨hpos, ?_⟩, Or.inr ⟨hposr, ?_⟩⟩
        · have := hchild false n (t.left n).toNat hn' (by simp [TreeArr.child]; omega)
          omega
        · have := hchild true n (t.right n).toNat hn' (by simp [TreeArr.child]; omega)
          omega
  exact ⟨Or.inr ⟨le_refl _, by exact_mod_cast h0⟩, fun n hn => (key n hn).1, fun n hn => (key n hn).2⟩

/-- A node of a stored tree tests a column that the model uses, or has a negative feature. -/
theorem feat_stored {m : Nat} {ts : List TreeArr} {t : TreeArr} (ht : t ∈ ts) {mem : Mem} (h : TreeStored m t mem) {n : Int} (hn : treeNodes t n)
    (hf : 0 ≤ mem.feat n) : UsesColumn ts (mem.feat n).toNat := by
  rcases hn with rfl | ⟨hn0, hn⟩
  · exact absurd hf (not_le.2 h.before.1)
  · lift n to Nat using hn0
    have hn' : n < t.size := by exact_mod_cast hn
    obtain ⟨e, _, _, _⟩ := h.holds n hn'
    rw [e] at hf ⊢
    refine ⟨t, ht, n, hn', ?_, by omega⟩
    by_contra hl
    exact absurd hf (not_le.2 (h.negLeaf n hn' (not_le.1 hl)))

end Acv
