import Verif.Lemmas.ProjCell

namespace Acv

/-! ### two memories that hold the same tree: the set version -/

theorem setInsert_sorted {l : List Int} (h : l.Pairwise (· < ·)) (a : Int) : (setInsert l a).Pairwise (· < ·) := by
  induction l with
  | nil => simp [setInsert]
  | cons b l ih =>
    rw [List.pairwise_cons] at h
    unfold setInsert
    split
    · rename_i hab
      rw [List.pairwise_cons]
      refine ⟨?_, List.pairwise_cons.mpr h⟩
      intro c hc
      rcases List.mem_cons.mp hc with rfl | hc
      · exact hab
      · exact lt_trans hab (h.1 c hc)
    · split
      · exact List.pairwise_cons.mpr h
      · rw [List.pairwise_cons]
        refine ⟨?_, ih h.2⟩
        intro c hc
        rcases (mem_setInsert _ _ _).mp hc with rfl | hc
        · omega
        · exact h.1 c hc

def nn (l : List Int) : List Int := l.filter fun n => decide (0 ≤ n)

theorem nn_sorted_ext {l l' : List Int} (h : l.Pairwise (· < ·)) (h' : l'.Pairwise (· < ·)) :
    (nn l = nn l' ↔ ∀ c : Int, 0 ≤ c → (c ∈ l ↔ c ∈ l')) := by
  constructor
  · intro he c hc
    have : c ∈ nn l ↔ c ∈ nn l' := by rw [he]
    simpa [nn, hc] using this
  · intro hm
    have hs1 : (nn l).Pairwise (· < ·) := h.filter _
    have hs2 : (nn l').Pairwise (· < ·) := h'.filter _
    apply List.Perm.eq_of_pairwise (le := (· < ·)) (by intro a b _ _ h1 h2; omega) hs1 hs2
    apply (List.perm_ext_iff_of_nodup (hs1.imp (by intro a b h; omega)) (hs2.imp (by intro a b h; omega))).mpr
    intro c
    simp only [nn, List.mem_filter, decide_eq_true_eq]
    exact ⟨fun hc => ⟨(hm c hc.2).mp hc.1, hc.2⟩, fun hc => ⟨(hm c hc.2).mpr hc.1, hc.2⟩⟩

/-- same non-negative nodes, and junk on both sides or on none -/
structure SimL (l l' : List Int) : Prop where
  s : l.Pairwise (· < ·)
  s' : l'.Pairwise (· < ·)
  nn : ∀ c : Int, 0 ≤ c → (c ∈ l ↔ c ∈ l')
  neg : (∃ c ∈ l, c < 0) ↔ (∃ c ∈ l', c < 0)

structure SimSt (a b : PState) : Prop where
  child : SimL a.child b.child
  rows : a.rows = b.rows
  rule : a.rule = b.rule

theorem SimL.insert {l l' : List Int} (h : SimL l l') (a : Int) : SimL (setInsert l a) (setInsert l' a) := by
  refine ⟨setInsert_sorted h.s a, setInsert_sorted h.s' a, ?_, ?_⟩
  · intro c hc
    rw [mem_setInsert, mem_setInsert, h.nn c hc]
  · have := h.neg
    constructor
    · rintro ⟨c, hc, hn⟩
      rcases (mem_setInsert _ _ _).mp hc with rfl | hc
      · exact ⟨c, (mem_setInsert _ _ _).mpr (Or.inl rfl), hn⟩
      · obtain ⟨c', h1, h2⟩ := this.mp ⟨c, hc, hn⟩
        exact ⟨c', (mem_setInsert _ _ _).mpr (Or.inr h1), h2⟩
    · rintro ⟨c, hc, hn⟩
      rcases (mem_setInsert _ _ _).mp hc with rfl | hc
      · exact ⟨c, (mem_setInsert _ _ _).mpr (Or.inl rfl), hn⟩
      · obtain ⟨c', h1, h2⟩ := this.mpr ⟨c, hc, hn⟩
        exact ⟨c', (mem_setInsert _ _ _).mpr (Or.inr h1), h2⟩

section
variable {mem mem' : Mem} {S : List Nat} {x : Row} {data : Nat → Row} {t : TreeArr} {minSize : Nat}

/-- visiting a junk node changes nothing but junk -/
structure Junk (a b : PState) : Prop where
  s : b.child.Pairwise (· < ·)
  nn : ∀ c : Int, 0 ≤ c → (c ∈ a.child ↔ c ∈ b.child)
  neg : ∃ c ∈ b.child, c < 0
  rows : a.rows = b.rows
  rule : a.rule = b.rule

theorem Junk.trans {a b c : PState} (h : Junk a b) (h' : Junk b c) : Junk a c :=
  ⟨h'.s, fun n hn => (h.nn n hn).trans (h'.nn n hn), h'.neg, h.rows.trans h'.rows, h.rule.trans h'.rule⟩

theorem visit_junk (hben : mem.Benign S) {n : Int} (hn : n < 0) {st : PState} (hs : st.child.Pairwise (· < ·)) :
    Junk st (mem.visit setInsert S x data n st) := by
  obtain ⟨h1, h2, h3⟩ := hben n hn
  have hv : mem.visit setInsert S x data n st = { st with child := setInsert (setInsert st.child (mem.lc n)) (mem.rc n) } := by
    unfold Mem.visit
    simp [h1]
  rw [hv]
  refine ⟨setInsert_sorted (setInsert_sorted hs _) _, ?_, ⟨mem.rc n, by simp [mem_setInsert], h3⟩, rfl, rfl⟩
  intro c hc
  simp only [mem_setInsert]
  constructor
  · intro h; exact Or.inr (Or.inr h)
  · rintro (rfl | rfl | h)
    · omega
    · omega
    · exact h

/-- junk nodes come first; if there is one and too few rows are left, the scan stops there -/
theorem scan_junk (hben : mem.Benign S) (pos : List Int) : ∀ (neg : List Int) (st : PState), (∀ n ∈ neg, n < 0) → neg ≠ [] →
    st.child.Pairwise (· < ·) →
    ∃ st', Junk st st' ∧ mem.scan setInsert S x data minSize (neg ++ pos) st =
      if st.rows.length < minSize then st' else mem.scan setInsert S x data minSize pos st'
  | [], _, _, h, _ => absurd rfl h
  | n :: ns, st, h, _, hs => by
    have hj := visit_junk (x := x) (data := data) hben (h n (by simp)) hs
    by_cases hlt : st.rows.length < minSize
    · refine ⟨_, hj, ?_⟩
      rw [List.cons_append]
      conv => lhs; unfold Mem.scan
      simp only
      rw [if_pos (by rw [← hj.rows]; exact hlt), if_pos hlt]
    · rw [List.cons_append]
      have e : mem.scan setInsert S x data minSize (n :: (ns ++ pos)) st =
          mem.scan setInsert S x data minSize (ns ++ pos) (mem.visit setInsert S x data n st) := by
        conv => lhs; unfold Mem.scan
        simp only
        rw [if_neg (by rw [← hj.rows]; exact hlt)]
      rw [e]
      by_cases hns : ns = []
      · subst hns
        exact ⟨_, hj, by rw [if_neg hlt]; rfl⟩
      · obtain ⟨st', h1, h2⟩ := scan_junk hben pos ns (mem.visit setInsert S x data n st)
          (fun k hk => h k (List.mem_cons_of_mem _ hk)) hns hj.s
        refine ⟨st', hj.trans h1, ?_⟩
        rw [h2, ← hj.rows]

theorem visit_sim (hm : mem.Holds t) (hm' : mem'.Holds t) {n : Nat} (hn : n < t.size) {a b : PState} (h : SimSt a b) :
    SimSt (mem.visit setInsert S x data n a) (mem'.visit setInsert S x data n b) := by
  obtain ⟨e1, e2, e3, e4⟩ := hm n hn
  obtain ⟨f1, f2, f3, f4⟩ := hm' n hn
  unfold Mem.visit
  simp only [e1, e2, e3, e4, f1, f2, f3, f4]
  split
  · split
    · exact ⟨h.child.insert _, by rw [h.rows], by rw [h.rule]⟩
    · exact ⟨h.child.insert _, by rw [h.rows], by rw [h.rule]⟩
  · exact ⟨(h.child.insert _).insert _, h.rows, h.rule⟩

theorem scan_pos_sim (hm : mem.Holds t) (hm' : mem'.Holds t) : ∀ (pos : List Int) (a b : PState),
    (∀ n ∈ pos, ∃ k : Nat, n = k ∧ k < t.size) → SimSt a b →
    SimSt (mem.scan setInsert S x data minSize pos a) (mem'.scan setInsert S x data minSize pos b)
  | [], _, _, _, h => h
  | n :: ns, a, b, hp, h => by
    obtain ⟨k, rfl, hk⟩ := hp n (by simp)
    have hv := visit_sim (S := S) (x := x) (data := data) hm hm' hk h
    unfold Mem.scan
    simp only
    rw [hv.rows]
    split
    · exact hv
    · exact scan_pos_sim hm hm' ns _ _ (fun n hn => hp n (List.mem_cons_of_mem _ hn)) hv

theorem sorted_split {l : List Int} (h : l.Pairwise (· < ·)) : l = l.filter (fun n => decide (n < 0)) ++ nn l := by
  induction l with
  | nil => rfl
  | cons a l ih =>
    rw [List.pairwise_cons] at h
    by_cases ha : a < 0
    · have : ¬ 0 ≤ a := by omega
      simp only [nn, List.filter_cons, ha, this, decide_true, decide_false, if_true, List.cons_append]
      congr 1
      exact ih h.2
    · have h0 : 0 ≤ a := by omega
      have h1 : l.filter (fun n => decide (n < 0)) = [] := by
        rw [List.filter_eq_nil_iff]
        intro c hc
        have := h.1 c hc
        simp; omega
      have h2 : nn l = l := by
        unfold nn
        rw [List.filter_eq_self]
        intro c hc
        have := h.1 c hc
        simp; omega
      simp only [nn, List.filter_cons, ha, h0, decide_true, decide_false, if_true, Bool.false_eq_true, if_false]
      rw [h1]
      show a :: l = [] ++ a :: nn l
      rw [h2]; rfl

theorem scan_sim (hm : mem.Holds t) (hm' : mem'.Holds t) (hb : mem.Benign S) (hb' : mem'.Benign S) {l l' : List Int} {a b : PState}
    (hl : SimL l l') (hlt : ∀ n ∈ l, 0 ≤ n → n < t.size) (h : SimSt a b) :
    SimSt (mem.scan setInsert S x data minSize l a) (mem'.scan setInsert S x data minSize l' b) := by
  have hnn : nn l = nn l' := (nn_sorted_ext hl.s hl.s').mpr hl.nn
  have hpos : ∀ n ∈ nn l, ∃ k : Nat, n = k ∧ k < t.size := by
    intro n hn
    simp only [nn, List.mem_filter, decide_eq_true_eq] at hn
    obtain ⟨k, rfl⟩ := Int.eq_ofNat_of_zero_le hn.2
    exact ⟨k, rfl, by have := hlt _ hn.1 hn.2; omega⟩
  rw [sorted_split hl.s, sorted_split hl.s', ← hnn]
  by_cases hneg : ∃ c ∈ l, c < 0
  · have hne : ∀ {l : List Int}, (∃ c ∈ l, c < 0) → l.filter (fun n => decide (n < 0)) ≠ [] := by
      rintro l ⟨c, hc, h0⟩ he
      have : c ∈ l.filter (fun n => decide (n < 0)) := by simp [hc, h0]
      rw [he] at this; simp at this
    obtain ⟨a', ja, ea⟩ := scan_junk (x := x) (data := data) (minSize := minSize) hb (nn l) _ a (by simp) (hne hneg) h.child.s
    obtain ⟨b', jb, eb⟩ := scan_junk (x := x) (data := data) (minSize := minSize) hb' (nn l) _ b (by simp) (hne (hl.neg.mp hneg)) h.child.s'
    rw [ea, eb]
    have hsim : SimSt a' b' := by
      refine ⟨⟨ja.s, jb.s, fun c hc => ?_, ⟨fun _ => jb.neg, fun _ => ja.neg⟩⟩, ?_, ?_⟩
      · rw [← ja.nn c hc, ← jb.nn c hc, h.child.nn c hc]
      · rw [← ja.rows, ← jb.rows, h.rows]
      · rw [← ja.rule, ← jb.rule, h.rule]
    rw [h.rows]
    split
    · exact hsim
    · exact scan_pos_sim hm hm' _ _ _ hpos hsim
  · have he : ∀ {l : List Int}, ¬ (∃ c ∈ l, c < 0) → l.filter (fun n => decide (n < 0)) = [] := by
      intro l hl
      rw [List.filter_eq_nil_iff]
      intro c hc
      simp only [decide_eq_true_eq]
      exact fun h0 => hl ⟨c, hc, h0⟩
    rw [he hneg, he (fun h => hneg (hl.neg.mpr h))]
    exact scan_pos_sim hm hm' _ _ _ hpos h

theorem child_lt {d : Nat} {b : BTree} (h : IsTree t d b) {n : Nat} (hn : n < t.size) :
    t.left n < t.size ∧ t.right n < t.size := by
  rcases node_cases h hn with hl | hi
  · omega
  · obtain ⟨cl, hcl⟩ := Int.eq_ofNat_of_zero_le hi.1
    obtain ⟨cr, hcr⟩ := Int.eq_ofNat_of_zero_le hi.2.1
    have h1 := above_lt h (Above.step ⟨hn, Or.inl hcl⟩ (Above.refl cl)) hn
    have h2 := above_lt h (Above.step ⟨hn, Or.inr hcr⟩ (Above.refl cr)) hn
    omega

/-- nodes stay inside the tree -/
theorem scan_lt {d : Nat} {b : BTree} {push : List Int → Int → List Int} (hpush : ∀ l a c, c ∈ push l a ↔ c = a ∨ c ∈ l)
    (h : IsTree t d b) (hm : mem.Holds t) (hb : mem.Benign S) :
    ∀ (nodes : List Int) (st : PState), (∀ n ∈ nodes, n < (t.size : Int)) → (∀ n ∈ st.child, n < (t.size : Int)) →
      ∀ n ∈ (mem.scan push S x data minSize nodes st).child, n < (t.size : Int)
  | [], _, _, h2 => h2
  | n :: ns, st, h1, h2 => by
    have hk : mem.lc n < (t.size : Int) ∧ mem.rc n < (t.size : Int) := by
      by_cases h0 : n < 0
      · obtain ⟨_, h3, h4⟩ := hb n h0
        omega
      · obtain ⟨k, rfl⟩ := Int.eq_ofNat_of_zero_le (not_lt.mp h0)
        have hkt : k < t.size := by have := h1 k (by simp); omega
        obtain ⟨_, _, e3, e4⟩ := hm k hkt
        rw [e3, e4]
        exact child_lt h hkt
    have hv : ∀ c ∈ (mem.visit push S x data n st).child, c < (t.size : Int) := by
      intro c hc
      unfold Mem.visit at hc
      simp only at hc
      split at hc
      · split at hc
        · simp only [hpush] at hc
          rcases hc with rfl | hc
          · exact hk.1
          · exact h2 c hc
        · simp only [hpush] at hc
          rcases hc with rfl | hc
          · exact hk.2
          · exact h2 c hc
      · simp only [hpush] at hc
        rcases hc with rfl | rfl | hc
        · exact hk.2
        · exact hk.1
        · exact h2 c hc
    unfold Mem.scan
    simp only
    split
    · exact hv
    · exact scan_lt hpush h hm hb ns _ (fun n hn => h1 n (List.mem_cons_of_mem _ hn)) hv

theorem levels_sim {d : Nat} {bt : BTree} (ht : IsTree t d bt) (hm : mem.Holds t) (hm' : mem'.Holds t) (hb : mem.Benign S)
    (hb' : mem'.Benign S) :
    ∀ (k : Nat) (l l' : List Int) (a b : PState), SimL l l' → (∀ n ∈ l, n < (t.size : Int)) → (∀ n ∈ a.child, n < (t.size : Int)) →
      SimSt a b →
      SimSt (mem.levels setInsert S x data minSize k l a) (mem'.levels setInsert S x data minSize k l' b)
  | 0, _, _, _, _, _, _, _, h => h
  | k + 1, l, l', a, b, hl, hlt, hct, h => by
    have hs := scan_sim (x := x) (data := data) (minSize := minSize) hm hm' hb hb' hl (fun n hn _ => hlt n hn) h
    have hc := scan_lt (x := x) (data := data) (minSize := minSize) mem_setInsert ht hm hb l a hlt hct
    exact levels_sim ht hm hm' hb hb' k _ _ _ _ hs.child hc hc hs

theorem run_sim {d : Nat} {bt : BTree} (ht : IsTree t d bt) (hm : mem.Holds t) (hm' : mem'.Holds t) (hb : mem.Benign S)
    (hb' : mem'.Benign S) (maxDepth N : Nat) (r : Rule) :
    mem.run setInsert S x data minSize maxDepth N r = mem'.run setInsert S x data minSize maxDepth N r := by
  have h := levels_sim (x := x) (data := data) (minSize := minSize) ht hm hm' hb hb' maxDepth [0] [0] ⟨[], List.range N, r⟩
    ⟨[], List.range N, r⟩ ⟨by simp, by simp, fun c _ => Iff.rfl, Iff.rfl⟩
    (by intro n hn; rw [List.mem_singleton.mp hn]; have := size_pos ht; omega) (by simp)
    ⟨⟨by simp, by simp, fun c _ => Iff.rfl, Iff.rfl⟩, rfl, rfl⟩
  unfold Mem.run
  simp only
  rw [h.rows, h.rule]

/-! ### the vector version -/

def SimV (l l' : List Int) : Prop := List.Forall₂ (fun a b => a = b ∨ a < 0 ∧ b < 0) l l'

structure SimVS (a b : PState) : Prop where
  child : SimV a.child b.child
  rows : a.rows = b.rows
  rule : a.rule = b.rule

theorem SimV.refl (l : List Int) : SimV l l := by
  induction l with
  | nil => exact List.Forall₂.nil
  | cons a l ih => exact List.Forall₂.cons (Or.inl rfl) ih

theorem SimV.push {l l' : List Int} (h : SimV l l') {a b : Int} (hab : a = b ∨ a < 0 ∧ b < 0) :
    SimV (pushBack l a) (pushBack l' b) := by
  unfold pushBack
  induction h with
  | nil => exact List.Forall₂.cons hab List.Forall₂.nil
  | cons hc _ ih => exact List.Forall₂.cons hc ih

theorem visit_simV (hm : mem.Holds t) (hm' : mem'.Holds t) (hb : mem.Benign S) (hb' : mem'.Benign S) {n n' : Int}
    (hn : n = n' ∨ n < 0 ∧ n' < 0) (hlt : n < (t.size : Int)) {a b : PState} (h : SimVS a b) :
    SimVS (mem.visit pushBack S x data n a) (mem'.visit pushBack S x data n' b) := by
  by_cases h0 : n < 0
  · have h0' : n' < 0 := by omega
    obtain ⟨h1, h2, h3⟩ := hb n h0
    obtain ⟨g1, g2, g3⟩ := hb' n' h0'
    unfold Mem.visit
    simp only [h1, g1, Bool.false_eq_true, if_false]
    exact ⟨(h.child.push (Or.inr ⟨h2, g2⟩)).push (Or.inr ⟨h3, g3⟩), h.rows, h.rule⟩
  · have hnn : n = n' := by omega
    subst hnn
    obtain ⟨k, rfl⟩ := Int.eq_ofNat_of_zero_le (not_lt.mp h0)
    have hk : k < t.size := by omega
    obtain ⟨e1, e2, e3, e4⟩ := hm k hk
    obtain ⟨f1, f2, f3, f4⟩ := hm' k hk
    unfold Mem.visit
    simp only [e1, e2, e3, e4, f1, f2, f3, f4]
    split
    · split
      · exact ⟨h.child.push (Or.inl rfl), by rw [h.rows], by rw [h.rule]⟩
      · exact ⟨h.child.push (Or.inl rfl), by rw [h.rows], by rw [h.rule]⟩
    · exact ⟨(h.child.push (Or.inl rfl)).push (Or.inl rfl), h.rows, h.rule⟩

theorem scan_simV (hm : mem.Holds t) (hm' : mem'.Holds t) (hb : mem.Benign S) (hb' : mem'.Benign S) :
    ∀ {l l' : List Int} (a b : PState), SimV l l' → (∀ n ∈ l, n < (t.size : Int)) → SimVS a b →
    SimVS (mem.scan pushBack S x data minSize l a) (mem'.scan pushBack S x data minSize l' b) := by
  intro l l' a b hl
  induction hl generalizing a b with
  | nil => intro _ h; exact h
  | cons hc _ ih =>
    intro hlt h
    have hv := visit_simV (x := x) (data := data) hm hm' hb hb' hc (hlt _ (by simp)) h
    unfold Mem.scan
    simp only
    rw [hv.rows]
    split
    · exact hv
    · exact ih _ _ (fun n hn => hlt n (List.mem_cons_of_mem _ hn)) hv

theorem levels_simV {d : Nat} {bt : BTree} (ht : IsTree t d bt) (hm : mem.Holds t) (hm' : mem'.Holds t) (hb : mem.Benign S)
    (hb' : mem'.Benign S) :
    ∀ (k : Nat) (l l' : List Int) (a b : PState), SimV l l' → (∀ n ∈ l, n < (t.size : Int)) → (∀ n ∈ a.child, n < (t.size : Int)) →
      SimVS a b →
      SimVS (mem.levels pushBack S x data minSize k l a) (mem'.levels pushBack S x data minSize k l' b)
  | 0, _, _, _, _, _, _, _, h => h
  | k + 1, l, l', a, b, hl, hlt, hct, h => by
    have hs := scan_simV (x := x) (data := data) (minSize := minSize) hm hm' hb hb' a b hl hlt h
    have hc := scan_lt (x := x) (data := data) (minSize := minSize) mem_pushBack ht hm hb l a hlt hct
    exact levels_simV ht hm hm' hb hb' k _ _ _ _ hs.child hc hc hs

theorem run_simV {d : Nat} {bt : BTree} (ht : IsTree t d bt) (hm : mem.Holds t) (hm' : mem'.Holds t) (hb : mem.Benign S)
    (hb' : mem'.Benign S) (maxDepth N : Nat) (r : Rule) :
    mem.run pushBack S x data minSize maxDepth N r = mem'.run pushBack S x data minSize maxDepth N r := by
  have h := levels_simV (x := x) (data := data) (minSize := minSize) ht hm hm' hb hb' maxDepth [0] [0] ⟨[], List.range N, r⟩
    ⟨[], List.range N, r⟩ (SimV.refl _)
    (by intro n hn; rw [List.mem_singleton.mp hn]; have := size_pos ht; omega) (by simp)
    ⟨SimV.refl _, rfl, rfl⟩
  unfold Mem.run
  simp only
  rw [h.rows, h.rule]

end

end Acv
