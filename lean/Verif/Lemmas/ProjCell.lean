import Verif.Lemmas.Projected

namespace Acv

theorem mem_setInsert (l : List Int) (a c : Int) : c ∈ setInsert l a ↔ c = a ∨ c ∈ l := by
  induction l with
  | nil => simp [setInsert]
  | cons b l ih =>
    unfold setInsert
    split
    · simp
    · split
      · rename_i h; subst h; simp
      · simp only [List.mem_cons, ih]; tauto

theorem mem_pushBack (l : List Int) (a c : Int) : c ∈ pushBack l a ↔ c = a ∨ c ∈ l := by
  unfold pushBack; simp [or_comm]

/-- one step of the projected descent of `x` -/
def PStep (t : TreeArr) (S : List Nat) (x : Row) (n c : Nat) : Prop :=
  n < t.size ∧ ((t.left n = (c : Int) ∧ ((t.feature n).toNat ∈ S → x (t.feature n).toNat ≤ t.threshold n)) ∨
    (t.right n = (c : Int) ∧ ((t.feature n).toNat ∈ S → t.threshold n < x (t.feature n).toNat)))

/-- `k` steps -/
inductive PPath (t : TreeArr) (S : List Nat) (x : Row) : Nat → Nat → Nat → Prop
  | refl (n) : PPath t S x 0 n n
  | step {k n c m} : PStep t S x n c → PPath t S x k c m → PPath t S x (k + 1) n m

theorem PPath.snoc {t : TreeArr} {S : List Nat} {x : Row} {k n c m : Nat} (h : PPath t S x k n c) (hs : PStep t S x c m) :
    PPath t S x (k + 1) n m := by
  induction h with
  | refl => exact PPath.step hs (PPath.refl _)
  | step h1 _ ih => exact PPath.step h1 (ih hs)

theorem PPath.above {t : TreeArr} {S : List Nat} {x : Row} {k n m : Nat} (h : PPath t S x k n m) : Above t k n m := by
  induction h with
  | refl => exact Above.refl _
  | step hs _ ih =>
    refine Above.step ⟨hs.1, ?_⟩ ih
    rcases hs.2 with h | h
    · exact Or.inl h.1
    · exact Or.inr h.1

theorem projVisits_path {t : TreeArr} {S : List Nat} {x : Row} {n : Nat} (h : ProjVisits t S x n) : ∃ k, PPath t S x k 0 n := by
  induction h with
  | root => exact ⟨0, PPath.refl _⟩
  | left _ h1 h2 h3 ih => obtain ⟨k, hk⟩ := ih; exact ⟨k + 1, hk.snoc ⟨h1, Or.inl ⟨h2, h3⟩⟩⟩
  | right _ h1 h2 h3 ih => obtain ⟨k, hk⟩ := ih; exact ⟨k + 1, hk.snoc ⟨h1, Or.inr ⟨h2, h3⟩⟩⟩

theorem ProjVisits.step {t : TreeArr} {S : List Nat} {x : Row} {n c : Nat} (h : ProjVisits t S x n) (hs : PStep t S x n c) :
    ProjVisits t S x c := by
  rcases hs.2 with h' | h'
  · exact ProjVisits.left h hs.1 h'.1 h'.2
  · exact ProjVisits.right h hs.1 h'.1 h'.2

theorem above_lt {t : TreeArr} {d b} (h : IsTree t d b) {k p n : Nat} (ha : Above t k p n) (hp : p < t.size) : n < t.size := by
  induction ha with
  | refl => exact hp
  | step hc _ ih =>
    apply ih
    rcases hc.2 with hh | hh
    · have := mem_links h.enc _ ((h.all _).mpr hc.1) false _ (by simpa [TreeArr.child] using hh)
      exact (h.all _).mp (by
        have := b.ids_perm.mem_iff (a := _) |>.mpr (List.mem_cons_of_mem _ (List.mem_map.mpr ⟨_, this, rfl⟩))
        exact this)
    · have := mem_links h.enc _ ((h.all _).mpr hc.1) true _ (by simpa [TreeArr.child] using hh)
      exact (h.all _).mp (by
        have := b.ids_perm.mem_iff (a := _) |>.mpr (List.mem_cons_of_mem _ (List.mem_map.mpr ⟨_, this, rfl⟩))
        exact this)

theorem size_pos {t : TreeArr} {d b} (h : IsTree t d b) : 0 < t.size := by
  rw [← h.all, ← h.root]; exact b.id_mem_ids

theorem projVisits_lt {t : TreeArr} {d b} (h : IsTree t d b) {S : List Nat} {x : Row} {n : Nat} (hv : ProjVisits t S x n) :
    n < t.size := by
  obtain ⟨k, hk⟩ := projVisits_path hv
  exact above_lt h hk.above (size_pos h)

/-- same side as `x` at node `n`, if the node is a split on a column of `S` -/
def SameSide (t : TreeArr) (S : List Nat) (x z : Row) (n : Nat) : Prop :=
  0 ≤ t.left n → (t.feature n).toNat ∈ S → (z (t.feature n).toNat ≤ t.threshold n ↔ x (t.feature n).toNat ≤ t.threshold n)

/-- same side at every node visited by `x` -/
def SameRoute (t : TreeArr) (S : List Nat) (x z : Row) : Prop := ∀ n, ProjVisits t S x n → SameSide t S x z n

theorem node_cases {t : TreeArr} {d b} (h : IsTree t d b) {n : Nat} (hn : n < t.size) :
    (t.left n < 0 ∧ t.right n < 0) ∨ (0 ≤ t.left n ∧ 0 ≤ t.right n ∧ 0 ≤ t.feature n ∧ t.left n ≠ t.right n) := by
  by_cases hl : t.left n < 0
  · left
    have := (encodes_leaf_iff h.enc h.nodup n ((h.all n).mpr hn)).mp (by simpa [TreeArr.isLeaf] using hl)
    exact leaf_children h.enc this
  · right
    have hl' : 0 ≤ t.left n := by omega
    have hf := feature_nonneg h.enc n ((h.all n).mpr hn) hl'
    have hr : 0 ≤ t.right n := by
      have key : ∀ {b : BTree}, Encodes t b → n ∈ b.ids → 0 ≤ t.left n → 0 ≤ t.right n := by
        intro b
        induction b with
        | leaf i => intro he hm h0; simp only [BTree.ids, List.mem_singleton] at hm; subst hm; have := he.1; omega
        | node i f thr l r ihl ihr =>
          intro he hm h0
          simp only [BTree.ids, List.mem_cons, List.mem_append] at hm
          rcases hm with rfl | hm | hm
          · rw [he.2.1]; exact Int.natCast_nonneg _
          · exact ihl he.2.2.2.2.2.1 hm h0
          · exact ihr he.2.2.2.2.2.2 hm h0
      exact key h.enc ((h.all n).mpr hn) hl'
    refine ⟨hl', hr, hf, ?_⟩
    intro heq
    obtain ⟨c, hc⟩ := Int.eq_ofNat_of_zero_le hl'
    have h1 := mem_links h.enc n ((h.all n).mpr hn) false c (by simpa [TreeArr.child] using hc)
    have h2 := mem_links h.enc n ((h.all n).mpr hn) true c (by simpa [TreeArr.child] using heq ▸ hc)
    have := (links_unique h.nodup h1 h2).2
    simp at this

/-- `SameRoute` is "the projected descents visit the same nodes" -/
theorem sameRoute_iff {t : TreeArr} {d b} (h : IsTree t d b) {S : List Nat} {x z : Row} :
    SameRoute t S x z ↔ ∀ n, ProjVisits t S x n ↔ ProjVisits t S z n := by
  constructor
  · intro hr n
    have hstep : ∀ {n c}, ProjVisits t S x n → (PStep t S x n c ↔ PStep t S z n c) := by
      intro n c hv
      have hn := projVisits_lt h hv
      have hs := hr n hv
      unfold PStep
      rcases node_cases h hn with hleaf | hint
      · constructor
        · rintro ⟨_, h1 | h1⟩
          · have := h1.1; omega
          · have := h1.1; omega
        · rintro ⟨_, h1 | h1⟩
          · have := h1.1; omega
          · have := h1.1; omega
      · have hs' := hs hint.1
        have e1 : ((t.feature n).toNat ∈ S → x (t.feature n).toNat ≤ t.threshold n) ↔
            ((t.feature n).toNat ∈ S → z (t.feature n).toNat ≤ t.threshold n) :=
          ⟨fun hh hm => (hs' hm).mpr (hh hm), fun hh hm => (hs' hm).mp (hh hm)⟩
        have e2 : ((t.feature n).toNat ∈ S → t.threshold n < x (t.feature n).toNat) ↔
            ((t.feature n).toNat ∈ S → t.threshold n < z (t.feature n).toNat) := by
          constructor <;> intro hh hm <;> rw [← not_le] <;> have := hh hm <;> rw [← not_le] at this
          · exact fun hc => this ((hs' hm).mp hc)
          · exact fun hc => this ((hs' hm).mpr hc)
        rw [e1, e2]
    constructor
    · intro hv
      induction hv with
      | root => exact ProjVisits.root
      | left hv' h1 h2 h3 ih => exact ih.step ((hstep hv').mp ⟨h1, Or.inl ⟨h2, h3⟩⟩)
      | right hv' h1 h2 h3 ih => exact ih.step ((hstep hv').mp ⟨h1, Or.inr ⟨h2, h3⟩⟩)
    · intro hv
      induction hv with
      | root => exact ProjVisits.root
      | left hv' h1 h2 h3 ih => exact ih.step ((hstep ih).mpr ⟨h1, Or.inl ⟨h2, h3⟩⟩)
      | right hv' h1 h2 h3 ih => exact ih.step ((hstep ih).mpr ⟨h1, Or.inr ⟨h2, h3⟩⟩)
  · intro heq n hv hl hm
    have hn := projVisits_lt h hv
    rcases node_cases h hn with hleaf | hint
    · omega
    -- a visited child comes from its parent
    have hback : ∀ {w : Row} {c : Nat}, ProjVisits t S w c → ChildOf t n c → PStep t S w n c := by
      intro w c hvc hcd
      cases hvc with
      | root =>
        rcases hcd.2 with hh | hh
        · have := mem_links h.enc n ((h.all n).mpr hn) false 0 (by simpa [TreeArr.child] using hh)
          exact absurd h.root.symm (root_not_link h.nodup this)
        · have := mem_links h.enc n ((h.all n).mpr hn) true 0 (by simpa [TreeArr.child] using hh)
          exact absurd h.root.symm (root_not_link h.nodup this)
      | left h0 h1 h2 h3 =>
        have := childOf_unique h hcd ⟨h1, Or.inl h2⟩
        subst this
        exact ⟨h1, Or.inl ⟨h2, h3⟩⟩
      | right h0 h1 h2 h3 =>
        have := childOf_unique h hcd ⟨h1, Or.inr h2⟩
        subst this
        exact ⟨h1, Or.inr ⟨h2, h3⟩⟩
    obtain ⟨cl, hcl⟩ := Int.eq_ofNat_of_zero_le hint.1
    obtain ⟨cr, hcr⟩ := Int.eq_ofNat_of_zero_le hint.2.1
    by_cases hx : x (t.feature n).toNat ≤ t.threshold n
    · have hvl : ProjVisits t S z cl := (heq cl).mp (ProjVisits.left hv hn hcl fun _ => hx)
      rcases (hback hvl ⟨hn, Or.inl hcl⟩).2 with h1 | h1
      · exact ⟨fun _ => hx, fun _ => h1.2 hm⟩
      · exact absurd (hcl.trans h1.1.symm) hint.2.2.2
    · have hvr : ProjVisits t S z cr := (heq cr).mp (ProjVisits.right hv hn hcr fun _ => not_le.mp hx)
      rcases (hback hvr ⟨hn, Or.inr hcr⟩).2 with h1 | h1
      · exact absurd (h1.1.trans hcr.symm) hint.2.2.2
      · exact ⟨fun hz => absurd hz (not_le.mpr (h1.2 hm)), fun hz => absurd hz hx⟩

/-! ### the walk without early stop -/

section
variable {mem : Mem} {push : List Int → Int → List Int} {S : List Nat} {x : Row} {data : Nat → Row}
  {t : TreeArr} {d : Nat} {b : BTree}

/-- a node the walk may hold: negative (junk) or visited -/
def Held (t : TreeArr) (S : List Nat) (x : Row) (n : Int) : Prop := n < 0 ∨ ∃ k : Nat, n = (k : Int) ∧ ProjVisits t S x k

theorem inS_feat_false {t : TreeArr} {S : List Nat} (hneg : NegLeafFeature t) {n : Nat} (hn : n < t.size) (hl : t.left n < 0) :
    inS S (t.feature n) = false := by
  have := hneg n hn hl
  rw [Bool.eq_false_iff]
  intro h
  have := (inS_iff.mp h).1
  omega

/-- what visiting a held node does -/
theorem visit_spec (hpush : ∀ l a c, c ∈ push l a ↔ c = a ∨ c ∈ l) (hmem : mem.Holds t) (h : IsTree t d b)
    (hneg : NegLeafFeature t) (hben : mem.Benign S) {n : Int} (hn : Held t S x n) (st : PState) :
    (∀ c ∈ (mem.visit push S x data n st).child, c ∈ st.child ∨ Held t S x c) ∧
    (∀ c ∈ st.child, c ∈ (mem.visit push S x data n st).child) ∧
    (mem.visit push S x data n st).rows.Sublist st.rows ∧
    (∀ i ∈ st.rows, SameRoute t S x (data i) → i ∈ (mem.visit push S x data n st).rows) ∧
    (∀ k : Nat, n = (k : Int) → (∀ c, PStep t S x k c → (c : Int) ∈ (mem.visit push S x data n st).child) ∧
      ∀ i ∈ (mem.visit push S x data n st).rows, SameSide t S x (data i) k) := by
  have hchild : ∀ c ∈ st.child, c ∈ (mem.visit push S x data n st).child := by
    intro c hc
    unfold Mem.visit
    simp only
    split
    · split <;> simp [hpush, hc]
    · simp [hpush, hc]
  have hsub : (mem.visit push S x data n st).rows.Sublist st.rows := by
    unfold Mem.visit
    simp only
    split
    · split <;> exact List.filter_sublist
    · exact List.Sublist.refl _
  rcases hn with hn | ⟨k, rfl, hv⟩
  · obtain ⟨h1, h2, h3⟩ := hben n hn
    refine ⟨?_, hchild, hsub, ?_, ?_⟩
    · intro c hc
      unfold Mem.visit at hc
      simp only [h1, Bool.false_eq_true, if_false, hpush] at hc
      rcases hc with rfl | rfl | hc
      · exact Or.inr (Or.inl h3)
      · exact Or.inr (Or.inl h2)
      · exact Or.inl hc
    · intro i hi _
      unfold Mem.visit
      simp only [h1]
      exact hi
    · intro k hk; omega
  · have hk := projVisits_lt h hv
    obtain ⟨e1, e2, e3, e4⟩ := hmem k hk
    rcases node_cases h hk with hleaf | hint
    · have hf := inS_feat_false (S := S) hneg hk hleaf.1
      refine ⟨?_, hchild, hsub, ?_, ?_⟩
      · intro c hc
        unfold Mem.visit at hc
        simp only [e1, hf, Bool.false_eq_true, if_false, hpush, e3, e4] at hc
        rcases hc with rfl | rfl | hc
        · exact Or.inr (Or.inl hleaf.2)
        · exact Or.inr (Or.inl hleaf.1)
        · exact Or.inl hc
      · intro i hi _
        unfold Mem.visit
        simp only [e1, hf]
        exact hi
      · intro k' hk'
        have : k' = k := by exact_mod_cast hk'.symm
        subst this
        refine ⟨?_, ?_⟩
        · rintro c ⟨_, h1 | h1⟩
          · have := h1.1; omega
          · have := h1.1; omega
        · intro i _ hl; omega
    · obtain ⟨cl, hcl⟩ := Int.eq_ofNat_of_zero_le hint.1
      obtain ⟨cr, hcr⟩ := Int.eq_ofNat_of_zero_le hint.2.1
      have hS : inS S (t.feature k) = true ↔ (t.feature k).toNat ∈ S := by
        rw [inS_iff]; exact ⟨fun h => h.2, fun h => ⟨hint.2.2.1, h⟩⟩
      by_cases hf : inS S (t.feature k) = true
      · have hm := hS.mp hf
        by_cases hx : x (t.feature k).toNat ≤ t.threshold k
        · have hvis : mem.visit push S x data k st = ⟨push st.child (t.left k),
              st.rows.filter (fun i => !decide (t.threshold k < data i (t.feature k).toNat)),
              st.rule.below (t.feature k).toNat (t.threshold k)⟩ := by
            unfold Mem.visit
            simp only [e1, e2, e3, hf, hx, if_true]
          rw [hvis]
          refine ⟨?_, by simp [hpush]; tauto, List.filter_sublist, ?_, ?_⟩
          · intro c hc
            simp only [hpush] at hc
            rcases hc with rfl | hc
            · exact Or.inr (Or.inr ⟨cl, hcl, ProjVisits.left hv hk hcl fun _ => hx⟩)
            · exact Or.inl hc
          · intro i hi hr
            have := (hr k hv hint.1 hm).mpr hx
            simp [hi, this]
          · intro k' hk'
            have : k' = k := by exact_mod_cast hk'.symm
            subst this
            refine ⟨?_, ?_⟩
            · rintro c ⟨_, h1 | h1⟩
              · simp [hpush, h1.1]
              · exact absurd hx (not_le.mpr (h1.2 hm))
            · intro i hi _ _
              simp only [List.mem_filter, Bool.not_eq_true', decide_eq_false_iff_not, not_lt] at hi
              exact ⟨fun _ => hx, fun _ => hi.2⟩
        · have hvis : mem.visit push S x data k st = ⟨push st.child (t.right k),
              st.rows.filter (fun i => !decide (data i (t.feature k).toNat ≤ t.threshold k)),
              st.rule.above (t.feature k).toNat (t.threshold k)⟩ := by
            unfold Mem.visit
            simp only [e1, e2, e4, hf, hx, if_true, if_false]
          rw [hvis]
          refine ⟨?_, by simp [hpush]; tauto, List.filter_sublist, ?_, ?_⟩
          · intro c hc
            simp only [hpush] at hc
            rcases hc with rfl | hc
            · exact Or.inr (Or.inr ⟨cr, hcr, ProjVisits.right hv hk hcr fun _ => not_le.mp hx⟩)
            · exact Or.inl hc
          · intro i hi hr
            have : ¬ data i (t.feature k).toNat ≤ t.threshold k := fun hc => hx ((hr k hv hint.1 hm).mp hc)
            simp [hi, this]
          · intro k' hk'
            have : k' = k := by exact_mod_cast hk'.symm
            subst this
            refine ⟨?_, ?_⟩
            · rintro c ⟨_, h1 | h1⟩
              · exact absurd (h1.2 hm) hx
              · simp [hpush, h1.1]
            · intro i hi _ _
              simp only [List.mem_filter, Bool.not_eq_true', decide_eq_false_iff_not] at hi
              exact ⟨fun hc => absurd hc hi.2, fun hc => absurd hc hx⟩
      · have hnm : (t.feature k).toNat ∉ S := fun hm => hf (hS.mpr hm)
        have hvis : mem.visit push S x data k st = { st with child := push (push st.child (t.left k)) (t.right k) } := by
          unfold Mem.visit
          simp only [e1, e3, e4, hf]
          rfl
        rw [hvis]
        refine ⟨?_, by simp [hpush]; tauto, List.Sublist.refl _, fun i hi _ => hi, ?_⟩
        · intro c hc
          simp only [hpush] at hc
          rcases hc with rfl | rfl | hc
          · exact Or.inr (Or.inr ⟨cr, hcr, ProjVisits.right hv hk hcr fun hm => absurd hm hnm⟩)
          · exact Or.inr (Or.inr ⟨cl, hcl, ProjVisits.left hv hk hcl fun hm => absurd hm hnm⟩)
          · exact Or.inl hc
        · intro k' hk'
          have : k' = k := by exact_mod_cast hk'.symm
          subst this
          refine ⟨?_, fun i _ _ hm => absurd hm hnm⟩
          rintro c ⟨_, h1 | h1⟩
          · simp [hpush, h1.1]
          · simp [hpush, h1.1]

open Classical in
/-- the rows that travel like `x` -/
noncomputable def routeRows (t : TreeArr) (S : List Nat) (x : Row) (data : Nat → Row) (N : Nat) : List Nat :=
  (List.range N).filter fun i => SameRoute t S x (data i)

theorem mem_routeRows {t : TreeArr} {S : List Nat} {x : Row} {data : Nat → Row} {N i : Nat} :
    i ∈ routeRows t S x data N ↔ i < N ∧ SameRoute t S x (data i) := by
  classical
  unfold routeRows
  rw [List.mem_filter, List.mem_range, decide_eq_true_eq]

variable {minSize N : Nat}

/-- one level, when the rows that travel like `x` are numerous enough -/
theorem scan_spec (hpush : ∀ l a c, c ∈ push l a ↔ c = a ∨ c ∈ l) (hmem : mem.Holds t) (h : IsTree t d b)
    (hneg : NegLeafFeature t) (hben : mem.Benign S) (hmin : minSize ≤ (routeRows t S x data N).length) :
    ∀ (nodes : List Int) (st : PState), (∀ n ∈ nodes, Held t S x n) → (∀ c ∈ st.child, Held t S x c) →
      (routeRows t S x data N).Sublist st.rows → st.rows.Sublist (List.range N) →
    let st' := mem.scan push S x data minSize nodes st
    (∀ c ∈ st'.child, Held t S x c) ∧ (∀ c ∈ st.child, c ∈ st'.child) ∧ (routeRows t S x data N).Sublist st'.rows ∧
      st'.rows.Sublist st.rows ∧
      ∀ k : Nat, (k : Int) ∈ nodes → (∀ c, PStep t S x k c → (c : Int) ∈ st'.child) ∧ ∀ i ∈ st'.rows, SameSide t S x (data i) k
  | [], st, _, h2, h3, _ => ⟨h2, fun c hc => hc, h3, List.Sublist.refl _, by simp⟩
  | n :: ns, st, h1, h2, h3, h4 => by
    obtain ⟨v1, v2, v3, v4, v5⟩ := visit_spec (data := data) hpush hmem h hneg hben (h1 n (by simp)) st
    have hroute : (routeRows t S x data N).Sublist (mem.visit push S x data n st).rows := by
      have hnd : (routeRows t S x data N).Nodup := List.nodup_range.filter _
      -- both are sublists of the sorted range
      have hsub := v3.trans h4
      have : routeRows t S x data N = ((mem.visit push S x data n st).rows).filter
          (fun i => decide (i ∈ routeRows t S x data N)) := by
        have hs1 : (routeRows t S x data N).Pairwise (· < ·) := List.pairwise_lt_range.filter _
        have hs2 : (((mem.visit push S x data n st).rows).filter
          (fun i => decide (i ∈ routeRows t S x data N))).Pairwise (· < ·) := (List.pairwise_lt_range.sublist hsub).filter _
        apply List.Perm.eq_of_pairwise (le := (· < ·)) (by intro a b _ _ h1 h2; omega) hs1 hs2
        apply (List.perm_ext_iff_of_nodup (hs1.imp (by intro a b h; omega)) (hs2.imp (by intro a b h; omega))).mpr
        intro i
        simp only [List.mem_filter, decide_eq_true_eq]
        constructor
        · intro hi
          refine ⟨v4 i (h3.subset hi) ?_, hi⟩
          unfold routeRows at hi
          rw [List.mem_filter] at hi
          simpa using hi.2
        · exact fun hi => hi.2
      rw [this]
      exact List.filter_sublist
    have hno : ¬ (mem.visit push S x data n st).rows.length < minSize := by
      have := hroute.length_le; omega
    have hrec := scan_spec hpush hmem h hneg hben hmin ns (mem.visit push S x data n st)
      (fun n' hn' => h1 n' (List.mem_cons_of_mem _ hn'))
      (fun c hc => (v1 c hc).elim (h2 c) _root_.id) hroute (v3.trans h4)
    simp only at hrec ⊢
    have hscan : mem.scan push S x data minSize (n :: ns) st = mem.scan push S x data minSize ns (mem.visit push S x data n st) := by
      conv => lhs; unfold Mem.scan
      simp only
      rw [if_neg hno]
    rw [hscan]
    obtain ⟨r1, r2, r3, r4, r5⟩ := hrec
    refine ⟨r1, fun c hc => r2 c (v2 c hc), r3, r4.trans v3, ?_⟩
    intro k hk
    rcases List.mem_cons.mp hk with hk | hk
    · obtain ⟨w1, w2⟩ := v5 k hk.symm
      exact ⟨fun c hc => r2 _ (w1 c hc), fun i hi => w2 i (r4.subset hi)⟩
    · exact r5 k hk

theorem levels_spec (hpush : ∀ l a c, c ∈ push l a ↔ c = a ∨ c ∈ l) (hmem : mem.Holds t) (h : IsTree t d b)
    (hneg : NegLeafFeature t) (hben : mem.Benign S) (hmin : minSize ≤ (routeRows t S x data N).length) :
    ∀ (K : Nat) (nodes : List Int) (st : PState), (∀ n ∈ nodes, Held t S x n) → (∀ c ∈ st.child, Held t S x c) →
      (routeRows t S x data N).Sublist st.rows → st.rows.Sublist (List.range N) →
    let st' := mem.levels push S x data minSize K nodes st
    (routeRows t S x data N).Sublist st'.rows ∧ st'.rows.Sublist st.rows ∧
      ∀ j < K, ∀ k : Nat, (k : Int) ∈ nodes → ∀ m, PPath t S x j k m → ∀ i ∈ st'.rows, SameSide t S x (data i) m
  | 0, _, st, _, _, h3, _ => ⟨h3, List.Sublist.refl _, by omega⟩
  | K + 1, nodes, st, h1, h2, h3, h4 => by
    obtain ⟨s1, s2, s3, s4, s5⟩ := scan_spec hpush hmem h hneg hben hmin nodes st h1 h2 h3 h4
    obtain ⟨r1, r2, r3⟩ := levels_spec hpush hmem h hneg hben hmin K _ _ s1 s1 s3 (s4.trans h4)
    simp only [Mem.levels]
    refine ⟨r1, r2.trans s4, ?_⟩
    intro j hj k hk m hp i hi
    cases hp with
    | refl => exact (s5 k hk).2 i (r2.subset hi)
    | step hs hp' => exact r3 _ (by omega) _ ((s5 k hk).1 _ hs) m hp' i hi

/-- the cell is the set of rows that travel like `x` -/
theorem run_rows (hpush : ∀ l a c, c ∈ push l a ↔ c = a ∨ c ∈ l) (hmem : mem.Holds t) (h : IsTree t d b)
    (hneg : NegLeafFeature t) (hben : mem.Benign S) (hmin : minSize ≤ (routeRows t S x data N).length) {maxDepth : Nat}
    (hdepth : ∀ k n, Above t k 0 n → k ≤ maxDepth) (r : Rule) :
    (mem.run push S x data minSize maxDepth N r).1 = routeRows t S x data N := by
  unfold Mem.run
  simp only
  have h0 : Held t S x 0 := Or.inr ⟨0, rfl, ProjVisits.root⟩
  obtain ⟨r1, r2, r3⟩ := levels_spec (st := ⟨[], List.range N, r⟩) hpush hmem h hneg hben hmin maxDepth [0]
    (by simpa using h0) (by simp) (by exact List.filter_sublist) (List.Sublist.refl _)
  apply (r1.antisymm _).symm
  have hs2 : (mem.levels push S x data minSize maxDepth [0] ⟨[], List.range N, r⟩).rows.Sublist (List.range N) := r2
  have hall : ∀ i ∈ (mem.levels push S x data minSize maxDepth [0] ⟨[], List.range N, r⟩).rows, SameRoute t S x (data i) := by
    intro i hi n hv hl hm
    obtain ⟨j, hj⟩ := projVisits_path hv
    have hlt : j < maxDepth := by
      have hn := projVisits_lt h hv
      obtain ⟨c, hc⟩ := Int.eq_ofNat_of_zero_le hl
      have := hdepth (j + 1) c (hj.above.trans_step ⟨hn, Or.inl hc⟩)
      omega
    exact r3 j hlt 0 (by simp) n hj i hi hl hm
  classical
  unfold routeRows
  have hself := List.filter_eq_self.mpr
    (show ∀ i ∈ (mem.levels push S x data minSize maxDepth [0] ⟨[], List.range N, r⟩).rows,
      decide (SameRoute t S x (data i)) = true from fun i hi => by simpa using hall i hi)
  have := hs2.filter (fun i => decide (SameRoute t S x (data i)))
  rw [hself] at this
  exact this

end

end Acv
