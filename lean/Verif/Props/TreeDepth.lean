import Verif.Props.NodeSize
import Verif.Props.Join

/-!
# C136: levels beyond the depth of a tree
-/

namespace Acv

variable {mem : Mem} {push : List Int → Int → List Int} {S : List Nat} {x : Row} {data : Nat → Row} {minSize : Nat}

/-- What the two ways of inserting a node have in common. -/
structure Keeps (push : List Int → Int → List Int) (I : List Int → Prop) : Prop where
  mem : ∀ l a c, c ∈ push l a ↔ c = a ∨ c ∈ l
  start : ∀ a, I (push [] a)
  keep : ∀ l a, I l → I (push l a)
  head : ∀ l a, I l → ∃ h t h' t', l = h :: t ∧ push l a = h' :: t' ∧ (h' = h ∨ (h' = a ∧ a ∉ l))

theorem keeps_pushBack : Keeps pushBack (fun l => l ≠ []) where
  mem := mem_pushBack
  start := fun a => by simp [pushBack]
  keep := fun l a _ => by simp [pushBack]
  head := fun l a h => by
    obtain ⟨b, t, rfl⟩ := List.exists_cons_of_ne_nil h
    exact ⟨b, t, b, t ++ [a], rfl, rfl, Or.inl rfl⟩

theorem keeps_setInsert : Keeps setInsert (fun l => ∃ h t, l = h :: t ∧ ∀ n ∈ l, h ≤ n) where
  mem := mem_setInsert
  start := fun a => ⟨a, [], rfl, fun n hn => (List.mem_singleton.1 hn).ge⟩
  keep := by
    rintro l a ⟨h, t, rfl, h1⟩
    obtain ⟨t', e⟩ := setInsert_head h a t
    refine ⟨_, t', e, fun n hn => ?_⟩
    rcases (mem_setInsert _ _ _).1 hn with rfl | hn
    · exact min_le_right _ _
    · exact (min_le_left _ _).trans (h1 n hn)
  head := by
    rintro l a ⟨h, t, rfl, h1⟩
    obtain ⟨t', e⟩ := setInsert_head h a t
    refine ⟨h, t, _, t', rfl, e, ?_⟩
    by_cases ha : h ≤ a
    · exact Or.inl (min_eq_left ha)
    · refine Or.inr ⟨min_eq_right (by omega), fun hm => ha (h1 a hm)⟩

/-- The cells that a visit of `n` inserts. -/
def Mem.next (mem : Mem) (S : List Nat) (x : Row) (n : Int) : List Int :=
  if inS S (mem.feat n) then (if x (mem.feat n).toNat ≤ mem.thr n then [mem.lc n] else [mem.rc n]) else [mem.lc n, mem.rc n]

theorem visit_child (n : Int) (st : PState) : (mem.visit push S x data n st).child = (mem.next S x n).foldl push st.child := by
  unfold Mem.visit Mem.next
  simp only
  split
  · split <;> rfl
  · rfl

/-- All tests on `S` below cell `n` are within `k` levels: `Z` is the set of cells without tests below them. -/
def Low (mem : Mem) (Z : Int → Prop) : Nat → Int → Prop
  | 0, n => Z n
  | k + 1, n => Low mem Z k (mem.lc n) ∧ Low mem Z k (mem.rc n)

/-- Cells of `Z` have no test on `S` and lead to cells of `Z`. -/
def Closed (mem : Mem) (S : List Nat) (Z : Int → Prop) : Prop := ∀ n, Z n → inS S (mem.feat n) = false ∧ Z (mem.lc n) ∧ Z (mem.rc n)

theorem low_next {Z : Int → Prop} (hZ : Closed mem S Z) {k : Nat} {n c : Int} (h : Low mem Z k n) (hc : c ∈ mem.next S x n) : Low mem Z (k - 1) c := by
  have hlr : Low mem Z (k - 1) (mem.lc n) ∧ Low mem Z (k - 1) (mem.rc n) := by
    cases k with
    | zero => exact (hZ n h).2
    | succ k => exact h
  unfold Mem.next at hc
  split at hc
  · split at hc
    · rw [List.mem_singleton.1 hc]; exact hlr.1
    · rw [List.mem_singleton.1 hc]; exact hlr.2
  · rcases List.mem_cons.1 hc with rfl | hc
    · exact hlr.1
    · rw [List.mem_singleton.1 hc]; exact hlr.2

theorem low_up {Z : Int → Prop} (hZ : Closed mem S Z) : ∀ {k : Nat} {n : Int}, Low mem Z k n → Low mem Z (k + 1) n
  | 0, n, h => (hZ n h).2
  | _ + 1, _, h => ⟨low_up hZ h.1, low_up hZ h.2⟩

theorem low_pred {Z : Int → Prop} (hZ : Closed mem S Z) {k : Nat} {n : Int} (h : Low mem Z (k - 1) n) : Low mem Z k n := by
  cases k with
  | zero => exact h
  | succ k => exact low_up hZ h

theorem mem_foldl_push {I : List Int → Prop} (K : Keeps push I) : ∀ (as l : List Int) (c : Int), c ∈ as.foldl push l ↔ c ∈ as ∨ c ∈ l
  | [], l, c => by simp
  | a :: as, l, c => by
    rw [List.foldl_cons, mem_foldl_push K as, K.mem]
    simp only [List.mem_cons]
    tauto

theorem foldl_keep {I : List Int → Prop} (K : Keeps push I) : ∀ (as l : List Int), I l → I (as.foldl push l)
  | [], _, h => h
  | a :: as, l, h => foldl_keep K as _ (K.keep l a h)

theorem foldl_head {I : List Int → Prop} (K : Keeps push I) : ∀ (as l : List Int), I l →
    ∃ h t h' t', l = h :: t ∧ as.foldl push l = h' :: t' ∧ (h' = h ∨ (h' ∈ as ∧ h' ∉ l))
  | [], l, hI => by
    obtain ⟨h, t, _, _, e, _⟩ := K.head l 0 hI
    exact ⟨h, t, h, t, e, e, Or.inl rfl⟩
  | a :: as, l, hI => by
    obtain ⟨h, t, h1, t1, e, e1, d1⟩ := K.head l a hI
    obtain ⟨h2, t2, h', t', e2, e3, d2⟩ := foldl_head K as (push l a) (K.keep l a hI)
    have h12 : h2 = h1 := by rw [e1] at e2; exact (List.cons.inj e2).1.symm
    subst h12
    refine ⟨h, t, h', t', e, e3, ?_⟩
    rcases d2 with rfl | ⟨d2, d3⟩
    · rcases d1 with d1 | ⟨rfl, d1⟩
      · exact Or.inl d1
      · exact Or.inr ⟨by simp, d1⟩
    · exact Or.inr ⟨by simp [d2], fun hm => d3 ((K.mem l a h').2 (Or.inr hm))⟩

/-- Cell `n` has nothing new to say beyond `k` levels. -/
def Fine (mem : Mem) (S : List Nat) (x : Row) (data : Nat → Row) (Z : Int → Prop) (k : Nat) (st : PState) (n : Int) : Prop :=
  Low mem Z k n ∨ (Applied mem S x data n st ∧ ∀ c ∈ mem.next S x n, c ∈ st.child)

variable {I : List Int → Prop} {Z : Int → Prop}

theorem Fine.visit (K : Keeps push I) {k : Nat} {st : PState} {n : Int} (h : Fine mem S x data Z k st n) (m : Int) :
    Fine mem S x data Z k (mem.visit push S x data m st) n := by
  rcases h with h | ⟨h1, h2⟩
  · exact Or.inl h
  · refine Or.inr ⟨h1.mono (visit_rows_sub _ _) (visit_rule_le _ _), fun c hc => ?_⟩
    rw [visit_child, mem_foldl_push K]
    exact Or.inr (h2 c hc)

theorem fine_self (K : Keeps push I) (k : Nat) (st : PState) (n : Int) : Fine mem S x data Z k (mem.visit push S x data n st) n :=
  Or.inr ⟨applied_visit _ _, fun c hc => by rw [visit_child, mem_foldl_push K]; exact Or.inl hc⟩

theorem fine_zero (hZ : Closed mem S Z) {st : PState} {n : Int} (h : Fine mem S x data Z 0 st n) : Applied mem S x data n st := by
  rcases h with h | h
  · exact fun hS => by rw [(hZ n h).1] at hS; cases hS
  · exact h.1

/-- The state between two levels with `k` levels to go: either all cells of the list are fine or the walk is short of rows and its first
cell is. -/
def Ready (mem : Mem) (S : List Nat) (x : Row) (data : Nat → Row) (Z : Int → Prop) (minSize k : Nat) (st : PState) : Prop :=
  (∀ n ∈ st.child, Fine mem S x data Z k st n) ∨
  (st.rows.length < minSize ∧ ∀ h t, st.child = h :: t → Fine mem S x data Z k st h)

/-- The first cell of the list after a visit. -/
theorem visit_head (K : Keeps push I) (hZ : Closed mem S Z) {k : Nat} {st : PState} {n : Int} (hI : I st.child)
    (hn : Low mem Z k n ∨ ∀ c ∈ mem.next S x n, c ∈ st.child) :
    ∃ h t h' t', st.child = h :: t ∧ (mem.visit push S x data n st).child = h' :: t' ∧ (h' = h ∨ Low mem Z (k - 1) h') := by
  obtain ⟨h, t, h', t', e, e', d⟩ := foldl_head K (mem.next S x n) st.child hI
  refine ⟨h, t, h', t', e, by rw [visit_child]; exact e', ?_⟩
  rcases d with d | ⟨d1, d2⟩
  · exact Or.inl d
  · rcases hn with hn | hn
    · exact Or.inr (low_next hZ hn d1)
    · exact absurd (hn _ d1) d2

theorem scan_ready (K : Keeps push I) (hZ : Closed mem S Z) {k : Nat} : ∀ (nodes : List Int) (st : PState), I st.child →
    (∀ n ∈ st.child, (n ∈ nodes ∧ Low mem Z k n) ∨ Fine mem S x data Z (k - 1) st n) → (∀ n ∈ nodes, n ∈ st.child) →
    (∀ h t, st.child = h :: t → nodes.head? = some h ∨ Fine mem S x data Z (k - 1) st h) →
    Ready mem S x data Z minSize (k - 1) (mem.scan push S x data minSize nodes st)
  | [], st, _, h1, _, _ => Or.inl fun n hn => by
      rcases h1 n hn with h | h
      · cases h.1
      · exact h
  | n :: ns, st, hI, h1, h2, h3 => by
    have hn : Low mem Z k n ∨ ∀ c ∈ mem.next S x n, c ∈ st.child := by
      rcases h1 n (h2 n (by simp)) with h | h | h
      · exact Or.inl h.2
      · exact Or.inl (low_pred hZ h)
      · exact Or.inr h.2
    have hI' : I (mem.visit push S x data n st).child := by rw [visit_child]; exact foldl_keep K _ _ hI
    have hhead : ∀ h t, (mem.visit push S x data n st).child = h :: t → Fine mem S x data Z (k - 1) (mem.visit push S x data n st) h := by
      intro h' t' e'
      obtain ⟨h, t, g, t2, e, e2, d⟩ := visit_head K hZ (data := data) hI hn
      have hg : h' = g := by rw [e2] at e'; exact (List.cons.inj e').1.symm
      subst hg
      rcases d with rfl | d
      · rcases h3 _ t e with h4 | h4
        · have : n = h' := by simpa using h4
          subst this
          exact fine_self K _ _ _
        · exact h4.visit K n
      · exact Or.inl d
    unfold Mem.scan
    simp only
    split
    · exact Or.inr ⟨‹_›, hhead⟩
    · refine scan_ready K hZ ns _ hI' (fun c hc => ?_) (fun c hc => ?_) fun h t e => Or.inr (hhead h t e)
      · rw [visit_child, mem_foldl_push K] at hc
        by_cases hcn : c = n
        · subst hcn
          exact Or.inr (fine_self K _ _ _)
        · have hold : c ∈ st.child → (c ∈ ns ∧ Low mem Z k c) ∨ Fine mem S x data Z (k - 1) (mem.visit push S x data n st) c := by
            intro hc
            rcases h1 c hc with ⟨h, hl⟩ | h
            · rcases List.mem_cons.1 h with h | h
              · exact absurd h hcn
              · exact Or.inl ⟨h, hl⟩
            · exact Or.inr (h.visit K n)
          rcases hc with hc | hc
          · rcases hn with hn | hn
            · exact Or.inr (Or.inl (low_next hZ hn hc))
            · exact hold (hn c hc)
          · exact hold hc
      · rw [visit_child, mem_foldl_push K]
        exact Or.inr (h2 c (by simp [hc]))

theorem fine_pred {k : Nat} {st : PState} {n : Int} (h : Fine mem S x data Z k st n) :
    (Low mem Z k n) ∨ Fine mem S x data Z (k - 1) st n := by
  rcases h with h | h
  · exact Or.inl h
  · exact Or.inr (Or.inr h)

theorem short_scan {h : Int} {t : List Int} {st : PState} (hlen : st.rows.length < minSize) :
    mem.scan push S x data minSize (h :: t) st = mem.visit push S x data h st := by
  unfold Mem.scan
  simp only
  rw [if_pos (lt_of_le_of_lt (visit_rows_sub (push := push) h st).length_le hlen)]

theorem level_ready (K : Keeps push I) (hZ : Closed mem S Z) {k : Nat} {st : PState} (hI : I st.child) (hr : Ready mem S x data Z minSize k st) :
    Ready mem S x data Z minSize (k - 1) (mem.scan push S x data minSize st.child st) := by
  rcases hr with hr | ⟨hlen, hr⟩
  · refine scan_ready K hZ st.child st hI (fun n hn => ?_) (fun _ h => h) fun h t e => Or.inl (by rw [e]; rfl)
    rcases fine_pred (hr n hn) with h | h
    · exact Or.inl ⟨hn, h⟩
    · exact Or.inr h
  · obtain ⟨h, t, _, _, e, _⟩ := K.head _ 0 hI
    have hf := hr h t e
    rw [e, short_scan hlen]
    refine Or.inr ⟨lt_of_le_of_lt (visit_rows_sub _ _).length_le hlen, fun h' t' e' => ?_⟩
    obtain ⟨g, t1, g', t2, e1, e2, d⟩ := visit_head K hZ (data := data) (k := k) (n := h) hI (hf.imp id fun h => h.2)
    have hg : h' = g' := by rw [e2] at e'; exact (List.cons.inj e').1.symm
    have hg0 : g = h := by rw [e] at e1; exact (List.cons.inj e1).1.symm
    subst hg hg0
    rcases d with rfl | d
    · exact fine_self K _ _ _
    · exact Or.inl d

theorem quiet_scan : ∀ (nodes : List Int) (st : PState), (∀ n ∈ nodes, Applied mem S x data n st) →
    (mem.scan push S x data minSize nodes st).rows = st.rows ∧ (mem.scan push S x data minSize nodes st).rule = st.rule
  | [], _, _ => ⟨rfl, rfl⟩
  | n :: ns, st, h => by
    obtain ⟨h1, h2⟩ := visit_applied (push := push) (h n (by simp))
    unfold Mem.scan
    simp only
    split
    · exact ⟨h1, h2⟩
    · have := quiet_scan ns (mem.visit push S x data n st) fun m hm =>
        (h m (by simp [hm])).mono (visit_rows_sub _ _) (visit_rule_le _ _)
      rw [this.1, this.2]
      exact ⟨h1, h2⟩

theorem quiet_level (K : Keeps push I) (hZ : Closed mem S Z) {st : PState} (hI : I st.child) (hr : Ready mem S x data Z minSize 0 st) :
    (mem.scan push S x data minSize st.child st).rows = st.rows ∧ (mem.scan push S x data minSize st.child st).rule = st.rule := by
  rcases hr with hr | ⟨hlen, hr⟩
  · exact quiet_scan _ _ fun n hn => fine_zero hZ (hr n hn)
  · obtain ⟨h, t, _, _, e, _⟩ := K.head _ 0 hI
    rw [e, short_scan hlen]
    exact visit_applied (fine_zero hZ (hr h t e))

theorem scan_keep (K : Keeps push I) (nodes : List Int) {st : PState} (hI : I st.child) : I (mem.scan push S x data minSize nodes st).child :=
  scan_induct (P := fun st => I st.child) (fun n st h => by rw [visit_child]; exact foldl_keep K _ _ h) nodes st hI

theorem levels_more (K : Keeps push I) (hZ : Closed mem S Z) : ∀ (k e : Nat) (st : PState), I st.child → Ready mem S x data Z minSize k st →
    (mem.levels push S x data minSize (k + e) st.child st).rows = (mem.levels push S x data minSize k st.child st).rows ∧
    (mem.levels push S x data minSize (k + e) st.child st).rule = (mem.levels push S x data minSize k st.child st).rule
  | 0, 0, _, _, _ => ⟨rfl, rfl⟩
  | 0, e + 1, st, hI, hr => by
    have hq := quiet_level K hZ hI hr
    have := levels_more K hZ 0 e _ (scan_keep K st.child hI) (level_ready K hZ hI hr)
    rw [Nat.zero_add] at this ⊢
    unfold Mem.levels
    simp only
    rw [this.1, this.2]
    unfold Mem.levels
    exact hq
  | k + 1, e, st, hI, hr => by
    have := levels_more K hZ k e _ (scan_keep K st.child hI) (level_ready K hZ hI hr)
    rw [show k + 1 + e = (k + e) + 1 by omega]
    unfold Mem.levels
    exact this

theorem run_more (K : Keeps push I) (hZ : Closed mem S Z) {k : Nat} (hk : Low mem Z k 0) (e N : Nat) (r : Rule) :
    mem.run push S x data minSize (k + e) N r = mem.run push S x data minSize k N r := by
  have hscan : ∀ st : PState, mem.scan push S x data minSize [0] st = mem.visit push S x data 0 st := by
    intro st
    unfold Mem.scan
    simp only
    split <;> rfl
  have hchild : ∀ c ∈ (mem.visit push S x data 0 ⟨[], List.range N, r⟩).child, Low mem Z (k - 1) c := by
    intro c hc
    rw [visit_child, mem_foldl_push K] at hc
    rcases hc with hc | hc
    · exact low_next hZ hk hc
    · cases hc
  have hI : I (mem.visit push S x data 0 ⟨[], List.range N, r⟩).child := by
    rw [visit_child]
    unfold Mem.next
    split
    · split <;> exact K.start _
    · exact K.keep _ _ (K.start _)
  have hr : Ready mem S x data Z minSize (k - 1) (mem.visit push S x data 0 ⟨[], List.range N, r⟩) := Or.inl fun n hn => Or.inl (hchild n hn)
  unfold Mem.run
  cases k with
  | zero =>
    cases e with
    | zero => rfl
    | succ e =>
      have h0 := visit_applied (push := push) (data := data) (x := x) (st := ⟨[], List.range N, r⟩)
        (fine_zero hZ (Or.inl hk : Fine mem S x data Z 0 _ 0))
      have := levels_more K hZ 0 e _ hI hr
      rw [Nat.zero_add] at this ⊢
      unfold Mem.levels
      simp only [hscan]
      rw [this.1, this.2]
      exact Prod.ext h0.1 h0.2
  | succ k =>
    have := levels_more K hZ k e _ hI hr
    rw [show k + 1 + e = (k + e) + 1 by omega]
    unfold Mem.levels
    simp only [hscan]
    exact Prod.ext this.1 this.2

/-! ### trees -/

/-- Cells without tests below them: the cell before the tree and leaves. -/
def OffTree (t : TreeArr) (n : Int) : Prop := n = -1 ∨ ∃ i : Nat, n = i ∧ i < t.size ∧ t.left i < 0

theorem offTree_closed {t : TreeArr} {m : Nat} {S : List Nat} (h : TreeIn S m t mem) : Closed mem S (OffTree t) := by
  rintro n (rfl | ⟨i, rfl, hi, hleaf⟩)
  · obtain ⟨h1, h2, h3⟩ := h.before
    refine ⟨?_, Or.inl h2, Or.inl h3⟩
    rw [Bool.eq_false_iff]
    exact fun hc => h1 (inS_iff.mp hc)
  · obtain ⟨e1, _, e3, e4⟩ := h.holds i hi
    rw [e1, e3, e4, (h.leafChildren i hi hleaf).1, (h.leafChildren i hi hleaf).2]
    refine ⟨?_, Or.inl rfl, Or.inl rfl⟩
    have := h.negLeaf i hi hleaf
    unfold inS
    simp [show ¬ (0 : Int) ≤ t.feature i by omega]

theorem tree_low {t : TreeArr} {m : Nat} {S : List Nat} (h : TreeIn S m t mem) {d : Nat} (hd : t.maxDepth ≤ d) :
    ∀ (k j n : Nat), Above t j 0 n → j + k = d → n < t.size → Low mem (OffTree t) k n
  | 0, j, n, ha, hjk, hn => by
    refine Or.inr ⟨n, rfl, hn, ?_⟩
    by_contra h0
    obtain ⟨c, hc⟩ := Int.eq_ofNat_of_zero_le (show 0 ≤ t.left n by omega)
    have := (C04_depth_is_height h.wf).1 _ _ (ha.trans_step (⟨hn, Or.inl hc⟩ : ChildOf t n c))
    omega
  | k + 1, j, n, ha, hjk, hn => by
    obtain ⟨b, hb⟩ := id h.wf
    by_cases h0 : t.left n < 0
    · have hz' : ∀ k, Low mem (OffTree t) k n := by
        intro k
        induction k with
        | zero => exact Or.inr ⟨n, rfl, hn, h0⟩
        | succ k ih => exact low_up (offTree_closed h) ih
      exact hz' (k + 1)
    · obtain ⟨_, _, e3, e4⟩ := h.holds n hn
      rcases node_cases hb hn with hl | hi
      · omega
      · obtain ⟨cl, hcl⟩ := Int.eq_ofNat_of_zero_le hi.1
        obtain ⟨cr, hcr⟩ := Int.eq_ofNat_of_zero_le hi.2.1
        have hlt := child_lt hb hn
        refine ⟨?_, ?_⟩
        · rw [e3, hcl]; exact tree_low h hd k (j + 1) cl (ha.trans_step ⟨hn, Or.inl hcl⟩) (by omega) (by omega)
        · rw [e4, hcr]; exact tree_low h hd k (j + 1) cr (ha.trans_step ⟨hn, Or.inr hcr⟩) (by omega) (by omega)

theorem root_low {t : TreeArr} {m : Nat} {S : List Nat} (h : TreeIn S m t mem) : Low mem (OffTree t) t.maxDepth 0 := by
  obtain ⟨b, hb⟩ := id h.wf
  exact tree_low h (le_refl _) t.maxDepth 0 0 (Above.refl 0) (by omega) (size_pos hb)

theorem forest_depth {S : List Nat} {m : Nat} {I : List Int → Prop} (K : Keeps push I) {x : Row} {data : Nat → Row} {minSize N d d' : Nat}
    {ts : List TreeArr} {mems : List Mem} (h : List.Forall₂ (TreeIn S m) ts mems) (hd : ∀ t ∈ ts, t.maxDepth ≤ d) (hd' : ∀ t ∈ ts, t.maxDepth ≤ d')
    (r : Rule) : forestRun push S x data minSize d N mems r = forestRun push S x data minSize d' N mems r := by
  induction h generalizing r with
  | nil => rfl
  | @cons t mem ts mems ht _ ih =>
    have hrun : ∀ d, t.maxDepth ≤ d → mem.run push S x data minSize d N r = mem.run push S x data minSize t.maxDepth N r := by
      intro d hd
      obtain ⟨e, rfl⟩ := Nat.exists_eq_add_of_le hd
      exact run_more K (offTree_closed ht) (root_low ht) e N r
    unfold forestRun
    simp only
    rw [hrun d (hd t (by simp)), hrun d' (hd' t (by simp)), ih (fun t ht => hd t (by simp [ht])) fun t ht => hd' t (by simp [ht])]

/-- **C136, partial**: levels beyond the depth of the trees change nothing: with any two depths that cover all trees the cells and the
rules are the same, so all estimates are. Missing (false): a first tree whose cell -1 holds a test, `C136_false`. -/
theorem C136_depth_partial {S : List Nat} {m : Nat} {ts : List TreeArr} {mems : List Mem} (h : List.Forall₂ (TreeIn S m) ts mems)
    {d d' : Nat} (hd : ∀ t ∈ ts, t.maxDepth ≤ d) (hd' : ∀ t ∈ ts, t.maxDepth ≤ d') (x : Row) (data : Nat → Row) (minSize N : Nat) (r : Rule) :
    forestRun setInsert S x data minSize d N mems r = forestRun setInsert S x data minSize d' N mems r ∧
    forestRun pushBack S x data minSize d N mems r = forestRun pushBack S x data minSize d' N mems r :=
  ⟨forest_depth keeps_setInsert h hd hd' r, forest_depth keeps_pushBack h hd hd' r⟩

/-- **C136, two forests, partial**: each forest is walked to its own depth, the two together to the depth of both; the estimates of the two
together are still the means of the estimates of the two. Missing (false): as for `C136_depth_partial`. -/
theorem C136_joined_partial {S : List Nat} {m : Nat} {ts ts' : List TreeArr} {mems mems' : List Mem} (h : List.Forall₂ (TreeIn S m) ts mems)
    (h' : List.Forall₂ (TreeIn S m) ts' mems') {d d' D : Nat} (hd : ∀ t ∈ ts, t.maxDepth ≤ d) (hd' : ∀ t ∈ ts', t.maxDepth ≤ d')
    (hD : ∀ t ∈ ts ++ ts', t.maxDepth ≤ D) (x : Row) (yx : ℚ) (data : Nat → Row) (y : Nat → ℚ) (minSize N : Nat) (classifier : Bool) (t : ℚ × ℚ) :
    AverageOf mems.length mems'.length (sdpRf mems S x yx data y minSize d N classifier t)
      (sdpRf mems' S x yx data y minSize d' N classifier t) (sdpRf (mems ++ mems') S x yx data y minSize D N classifier t) ∧
    AverageOf mems.length mems'.length (ddpRf mems S x yx data y minSize d N classifier t)
      (ddpRf mems' S x yx data y minSize d' N classifier t) (ddpRf (mems ++ mems') S x yx data y minSize D N classifier t) ∧
    AverageOf mems.length mems'.length (expRf mems S x data y minSize d N) (expRf mems' S x data y minSize d' N)
      (expRf (mems ++ mems') S x data y minSize D N) ∧
    (∀ q : ℚ, AverageOf mems.length mems'.length (cdfRf mems S x data y minSize d N q) (cdfRf mems' S x data y minSize d' N q)
      (cdfRf (mems ++ mems') S x data y minSize D N q)) ∧
    ∀ i, AverageOf mems.length mems'.length (ruleWeights mems S x data minSize d N i) (ruleWeights mems' S x data minSize d' N i)
      (ruleWeights (mems ++ mems') S x data minSize D N i) := by
  have e := C136_depth_partial h hd (fun t ht => hD t (List.mem_append_left _ ht)) x data minSize N Rule.init
  have e' := C136_depth_partial h' hd' (fun t ht => hD t (List.mem_append_right _ ht)) x data minSize N Rule.init
  have hs : cellsSet mems S x data minSize d N = cellsSet mems S x data minSize D N := congrArg Prod.fst e.1
  have hs' : cellsSet mems' S x data minSize d' N = cellsSet mems' S x data minSize D N := congrArg Prod.fst e'.1
  have hv : cellsVec mems S x data minSize d N = cellsVec mems S x data minSize D N := congrArg Prod.fst e.2
  have hv' : cellsVec mems' S x data minSize d' N = cellsVec mems' S x data minSize D N := congrArg Prod.fst e'.2
  have := C119_forest mems mems' S x yx data y minSize D N classifier t
  unfold sdpRf ddpRf expRf cdfRf ruleWeights at *
  rw [hs, hs', hv, hv']
  exact this

/-- A tree of depth 1 beside a tree of depth 3. -/
example : rootSplit.maxDepth = 1 ∧ ladderTree.maxDepth = 3 ∧
    cellsSet [Mem.ofTree rootSplit leafJunk] [0, 1, 2] (diag 4) diag 1 1 10 = [[2, 3, 4, 5, 6, 7, 8, 9]] ∧
    cellsSet [Mem.ofTree rootSplit leafJunk, Mem.ofTree ladderTree leafJunk] [0, 1, 2] (diag 4) diag 1 3 10 =
      [[2, 3, 4, 5, 6, 7, 8, 9], [4, 5]] ∧
    cellsSet [Mem.ofTree ladderTree leafJunk] [0, 1, 2] (diag 4) diag 1 2 10 ≠ cellsSet [Mem.ofTree ladderTree leafJunk] [0, 1, 2] (diag 4) diag 1 3 10 := by
  refine ⟨by decide +kernel, by decide +kernel, by decide +kernel, by decide +kernel, by decide +kernel⟩

/-- The claim for a forest in memory, whatever precedes it. -/
def C136_claim : Prop :=
  ∀ (ts : List TreeArr) (mems : List Mem) (S : List Nat) (m : Nat), (∀ t ∈ ts, WellFormed t m ∧ LeafChildren t ∧ NegLeafFeature t) →
  List.Forall₂ (fun t (mem : Mem) => mem.Holds t) ts mems → ∀ d d' : Nat, (∀ t ∈ ts, t.maxDepth ≤ d) → (∀ t ∈ ts, t.maxDepth ≤ d') →
  ∀ (x : Row) (data : Nat → Row) (minSize N : Nat), cellsSet mems S x data minSize d N = cellsSet mems S x data minSize d' N

/-- **The first tree**: below a leaf the walk reads the cell before the tree. A tree of depth 1 does not get there in one level, but it
does when a deeper tree is added to the forest. -/
theorem C136_false : ¬ C136_claim := by
  intro h
  have := h [rootSplit] [Mem.ofTree rootSplit ⟨fun _ => 1, fun _ => 0, fun _ => -1, fun _ => -1⟩] [0, 1] 3
    (by simpa using ⟨⟨_, rootSplit_isTree⟩, (rootSplit_in []).leafChildren, (rootSplit_in []).negLeaf⟩)
    (.cons (ofTree_holds _ _) .nil) 1 3 (by decide +kernel) (by decide +kernel) (fun _ => 0)
    (fun i j => if j = 1 then 5 * i else 0) 0 2
  revert this
  decide +kernel

/-! ### the Python versions -/

/-- The test of cell `n` drops no row. -/
def AppliedPy (mem : Mem) (S : List Nat) (x : Row) (data : Nat → Row) (n : Int) (samples : List Nat) : Prop :=
  ∀ child, (mem.visitPy S x data n child samples).2 = samples

theorem visitPy_child (n : Int) (child : List Int) (samples : List Nat) :
    (mem.visitPy S x data n child samples).1 = child ++ mem.next S x n := by
  unfold Mem.visitPy Mem.next
  simp only
  split
  · split <;> rfl
  · simp

theorem visitPy_rows (n : Int) (child child' : List Int) (samples : List Nat) :
    (mem.visitPy S x data n child samples).2 = (mem.visitPy S x data n child' samples).2 := by
  unfold Mem.visitPy
  simp only
  split
  · split <;> rfl
  · rfl

theorem visitPy_sub (n : Int) (child : List Int) (samples : List Nat) : (mem.visitPy S x data n child samples).2.Sublist samples := by
  unfold Mem.visitPy
  simp only
  split
  · split <;> exact List.filter_sublist
  · exact List.Sublist.refl _

theorem AppliedPy.mono {n : Int} {l l' : List Nat} (h : AppliedPy mem S x data n l) (hs : l'.Sublist l) : AppliedPy mem S x data n l' := by
  intro child
  have h := h child
  unfold Mem.visitPy at h ⊢
  simp only at h ⊢
  split at h
  · rename_i hS
    simp only [hS, if_true]
    split at h
    · rename_i hx
      simp only [hx, if_true]
      exact List.filter_eq_self.2 fun i hi => List.filter_eq_self.1 h i (hs.subset hi)
    · rename_i hx
      simp only [hx, if_false]
      exact List.filter_eq_self.2 fun i hi => List.filter_eq_self.1 h i (hs.subset hi)
  · rename_i hS
    simp only [hS]
    rfl

theorem appliedPy_visit (n : Int) (child : List Int) (samples : List Nat) :
    AppliedPy mem S x data n (mem.visitPy S x data n child samples).2 := by
  intro child'
  unfold Mem.visitPy
  simp only
  by_cases hS : inS S (mem.feat n) = true
  · simp only [hS, if_true]
    by_cases hx : x (mem.feat n).toNat ≤ mem.thr n
    · simp only [hx, if_true]
      exact List.filter_eq_self.2 fun i hi => (List.mem_filter.1 hi).2
    · simp only [hx, if_false]
      exact List.filter_eq_self.2 fun i hi => (List.mem_filter.1 hi).2
  · simp only [hS]
    rfl

/-- Cell `n` has nothing new to say beyond `k` levels. -/
def FinePy (mem : Mem) (S : List Nat) (x : Row) (data : Nat → Row) (Z : Int → Prop) (k : Nat) (child : List Int) (samples : List Nat) (n : Int) : Prop :=
  Low mem Z k n ∨ (AppliedPy mem S x data n samples ∧ ∀ c ∈ mem.next S x n, c ∈ child)

/-- The walk is held up: the cells before some cell drop no row, and that cell is refused. -/
def HeldUp (mem : Mem) (S : List Nat) (x : Row) (data : Nat → Row) (minSize : Nat) (child : List Int) (samples : List Nat) : Prop :=
  ∃ p n q, child = p ++ n :: q ∧ (∀ a ∈ p, AppliedPy mem S x data a samples) ∧ (mem.visitPy S x data n [] samples).2.length < minSize

theorem heldUp_append {child : List Int} {samples : List Nat} (h : HeldUp mem S x data minSize child samples) (l : List Int) :
    HeldUp mem S x data minSize (child ++ l) samples := by
  obtain ⟨p, n, q, rfl, h1, h2⟩ := h
  exact ⟨p, n, q ++ l, by simp, h1, h2⟩

theorem scanPy_append : ∀ (nodes child : List Int) (samples : List Nat), ∃ l, (mem.scanPy S x data minSize nodes child samples).1 = child ++ l
  | [], child, _ => ⟨[], by simp [Mem.scanPy]⟩
  | n :: ns, child, samples => by
    unfold Mem.scanPy
    simp only
    split
    · exact ⟨_, visitPy_child n child samples⟩
    · obtain ⟨l, hl⟩ := scanPy_append ns (mem.visitPy S x data n child samples).1 (mem.visitPy S x data n child samples).2
      exact ⟨mem.next S x n ++ l, by rw [hl, visitPy_child, List.append_assoc]⟩

theorem scanPy_held : ∀ (p : List Int) (n : Int) (q child : List Int) (samples : List Nat), (∀ a ∈ p, AppliedPy mem S x data a samples) →
    (mem.visitPy S x data n [] samples).2.length < minSize → (mem.scanPy S x data minSize (p ++ n :: q) child samples).2 = samples
  | [], n, q, child, samples, _, h2 => by
    rw [List.nil_append]
    unfold Mem.scanPy
    simp only
    rw [if_pos (by rw [visitPy_rows n child [] samples]; exact h2)]
  | a :: p, n, q, child, samples, h1, h2 => by
    rw [List.cons_append]
    unfold Mem.scanPy
    simp only
    split
    · rfl
    · rw [h1 a (by simp) child]
      exact scanPy_held p n q _ samples (fun b hb => h1 b (by simp [hb])) h2

theorem held_levels : ∀ (k : Nat) (child : List Int) (samples : List Nat), HeldUp mem S x data minSize child samples →
    mem.levelsPy S x data minSize k child child samples = samples
  | 0, _, _, _ => rfl
  | k + 1, child, samples, h => by
    obtain ⟨p, n, q, e, h1, h2⟩ := id h
    have hs : (mem.scanPy S x data minSize child child samples).2 = samples := by
      conv_lhs => rw [e]
      exact scanPy_held p n q _ samples h1 h2
    obtain ⟨l, hl⟩ := scanPy_append (mem := mem) (S := S) (x := x) (data := data) (minSize := minSize) child child samples
    unfold Mem.levelsPy
    simp only
    rw [hs, hl]
    exact held_levels k _ _ (heldUp_append h l)

theorem FinePy.visit {Z : Int → Prop} {k : Nat} {child : List Int} {samples : List Nat} {n : Int} (h : FinePy mem S x data Z k child samples n) (m : Int) :
    FinePy mem S x data Z k (mem.visitPy S x data m child samples).1 (mem.visitPy S x data m child samples).2 n := by
  rcases h with h | ⟨h1, h2⟩
  · exact Or.inl h
  · refine Or.inr ⟨h1.mono (visitPy_sub _ _ _), fun c hc => ?_⟩
    rw [visitPy_child]
    exact List.mem_append_left _ (h2 c hc)

/-- Between two levels with `k` levels to go. -/
def ReadyPy (mem : Mem) (S : List Nat) (x : Row) (data : Nat → Row) (Z : Int → Prop) (minSize k : Nat) (child : List Int) (samples : List Nat) : Prop :=
  (∀ n ∈ child, FinePy mem S x data Z k child samples n) ∨ HeldUp mem S x data minSize child samples

theorem scanPy_ready {Z : Int → Prop} (hZ : Closed mem S Z) {k : Nat} : ∀ (nodes done rest child : List Int) (samples : List Nat),
    child = done ++ nodes ++ rest → (∀ a ∈ done, AppliedPy mem S x data a samples) →
    (∀ n ∈ child, (n ∈ nodes ∧ Low mem Z k n) ∨ FinePy mem S x data Z (k - 1) child samples n) →
    ReadyPy mem S x data Z minSize (k - 1) (mem.scanPy S x data minSize nodes child samples).1 (mem.scanPy S x data minSize nodes child samples).2
  | [], _, _, child, samples, _, _, h => Or.inl fun n hn => by
      rcases h n hn with h | h
      · cases h.1
      · exact h
  | n :: ns, done, rest, child, samples, e, hdone, h => by
    unfold Mem.scanPy
    simp only
    split
    · rename_i hlt
      refine Or.inr ⟨done, n, ns ++ rest ++ mem.next S x n, ?_, hdone, by rw [visitPy_rows n [] child samples]; exact hlt⟩
      rw [visitPy_child, e]
      simp
    · have hnc : n ∈ child := by rw [e]; simp
      have hn : Low mem Z k n ∨ ∀ c ∈ mem.next S x n, c ∈ child := by
        rcases h n hnc with h | h | h
        · exact Or.inl h.2
        · exact Or.inl (low_pred hZ h)
        · exact Or.inr h.2
      refine scanPy_ready hZ ns (done ++ [n]) (rest ++ mem.next S x n) _ _ (by rw [visitPy_child, e]; simp) (fun a ha => ?_) fun c hc => ?_
      · rcases List.mem_append.1 ha with ha | ha
        · exact (hdone a ha).mono (visitPy_sub _ _ _)
        · rw [List.mem_singleton.1 ha]; exact appliedPy_visit _ _ _
      · by_cases hcn : c = n
        · subst hcn
          exact Or.inr (Or.inr ⟨appliedPy_visit _ _ _, fun b hb => by rw [visitPy_child]; exact List.mem_append_right _ hb⟩)
        · have hold : c ∈ child → (c ∈ ns ∧ Low mem Z k c) ∨
              FinePy mem S x data Z (k - 1) (mem.visitPy S x data n child samples).1 (mem.visitPy S x data n child samples).2 c := by
            intro hc
            rcases h c hc with ⟨h, hl⟩ | h
            · rcases List.mem_cons.1 h with h | h
              · exact absurd h hcn
              · exact Or.inl ⟨h, hl⟩
            · exact Or.inr (h.visit n)
          rw [visitPy_child] at hc
          rcases List.mem_append.1 hc with hc | hc
          · exact hold hc
          · rcases hn with hn | hn
            · exact Or.inr (Or.inl (low_next hZ hn hc))
            · exact hold (hn c hc)

theorem quiet_scanPy : ∀ (nodes child : List Int) (samples : List Nat), (∀ n ∈ nodes, AppliedPy mem S x data n samples) →
    (mem.scanPy S x data minSize nodes child samples).2 = samples
  | [], _, _, _ => rfl
  | n :: ns, child, samples, h => by
    unfold Mem.scanPy
    simp only
    split
    · rfl
    · rw [h n (by simp) child]
      exact quiet_scanPy ns _ samples fun m hm => h m (by simp [hm])

theorem levelsPy_more {Z : Int → Prop} (hZ : Closed mem S Z) : ∀ (k e : Nat) (child : List Int) (samples : List Nat),
    ReadyPy mem S x data Z minSize k child samples →
    mem.levelsPy S x data minSize (k + e) child child samples = mem.levelsPy S x data minSize k child child samples := by
  intro k e child samples hr
  rcases hr with hr | hr
  swap
  · rw [held_levels _ _ _ hr, held_levels _ _ _ hr]
  have step : ReadyPy mem S x data Z minSize (k - 1) (mem.scanPy S x data minSize child child samples).1
      (mem.scanPy S x data minSize child child samples).2 := by
    refine scanPy_ready hZ child [] [] child samples (by simp) (by simp) fun n hn => ?_
    rcases hr n hn with h | h
    · exact Or.inl ⟨hn, h⟩
    · exact Or.inr (Or.inr h)
  induction k generalizing e child samples with
  | succ k ih =>
    rw [show k + 1 + e = (k + e) + 1 by omega]
    unfold Mem.levelsPy
    simp only
    rcases id step with hr' | hr'
    · refine ih e _ _ hr' ?_
      refine scanPy_ready hZ _ [] [] _ _ (by simp) (by simp) fun n hn => ?_
      rcases hr' n hn with h | h
      · exact Or.inl ⟨hn, h⟩
      · exact Or.inr (Or.inr h)
    · rw [held_levels _ _ _ hr', held_levels _ _ _ hr']
  | zero =>
    induction e generalizing child samples with
    | zero => rfl
    | succ e ih =>
      have hq : (mem.scanPy S x data minSize child child samples).2 = samples := quiet_scanPy _ _ _ fun n hn => by
        rcases hr n hn with h | h
        · intro child
          unfold Mem.visitPy
          simp only [(hZ n h).1]
          rfl
        · exact h.1
      rw [show 0 + (e + 1) = (0 + e) + 1 by omega]
      conv_lhs => unfold Mem.levelsPy
      simp only
      rcases id step with hr' | hr'
      · rw [ih _ _ hr' ?_]
        · unfold Mem.levelsPy; exact hq
        · refine scanPy_ready hZ _ [] [] _ _ (by simp) (by simp) fun n hn => ?_
          rcases hr' n hn with h | h
          · exact Or.inl ⟨hn, h⟩
          · exact Or.inr (Or.inr h)
      · rw [held_levels _ _ _ hr', hq]
        rfl

theorem cellPy_more {Z : Int → Prop} (hZ : Closed mem S Z) {k : Nat} (hk : Low mem Z k 0) (e N : Nat) :
    mem.cellPy S x data minSize (k + e) N = mem.cellPy S x data minSize k N := by
  have hchild : ∀ samples', ReadyPy mem S x data Z minSize (k - 1) (mem.next S x 0) samples' := fun _ =>
    Or.inl fun c hc => Or.inl (low_next hZ hk hc)
  have h1 : ∀ samples, (mem.scanPy S x data minSize [0] [] samples).1 = mem.next S x 0 := by
    intro samples
    unfold Mem.scanPy
    simp only
    split
    · rw [visitPy_child]; rfl
    · unfold Mem.scanPy; rw [visitPy_child]; rfl
  unfold Mem.cellPy
  cases k with
  | succ k =>
    rw [show k + 1 + e = (k + e) + 1 by omega]
    unfold Mem.levelsPy
    simp only [h1]
    exact levelsPy_more hZ k e _ _ (hchild _)
  | zero =>
    cases e with
    | zero => rfl
    | succ e =>
      rw [show 0 + (e + 1) = (0 + e) + 1 by omega]
      conv_lhs => unfold Mem.levelsPy
      simp only [h1]
      rw [levelsPy_more hZ 0 e _ _ (hchild _)]
      unfold Mem.levelsPy
      exact quiet_scanPy _ _ _ fun n hn => by
        rw [List.mem_singleton.1 hn]
        intro child
        unfold Mem.visitPy
        simp only [(hZ 0 hk).1]
        rfl

/-- **C136, Python versions, partial**: the rows that a tree uses are the same for any two depths that cover the tree. Missing (false): as for
`C136_depth_partial`. -/
theorem C136_python_partial {S : List Nat} {m : Nat} {t : TreeArr} (h : TreeIn S m t mem) {d d' : Nat} (hd : t.maxDepth ≤ d)
    (hd' : t.maxDepth ≤ d') (x : Row) (data : Nat → Row) (minSize N : Nat) :
    mem.cellPy S x data minSize d N = mem.cellPy S x data minSize d' N := by
  have : ∀ d, t.maxDepth ≤ d → mem.cellPy S x data minSize d N = mem.cellPy S x data minSize t.maxDepth N := by
    intro d hd
    obtain ⟨e, rfl⟩ := Nat.exists_eq_add_of_le hd
    exact cellPy_more (offTree_closed h) (root_low h) e N
  rw [this d hd, this d' hd']

/-- A refused test, and the same rows with more levels. -/
example : (Mem.ofTree ladderTree leafJunk).cellPy [0, 1, 2] (diag 4) diag 3 3 10 = [4, 5, 6, 7, 8, 9] ∧
    (Mem.ofTree ladderTree leafJunk).cellPy [0, 1, 2] (diag 4) diag 3 5 10 = [4, 5, 6, 7, 8, 9] := by
  refine ⟨by decide +kernel, by decide +kernel⟩

end Acv
