import Verif.Props.Projected

/-!
# C135: raising `min_node_size`
-/

namespace Acv

variable {mem : Mem} {push : List Int → Int → List Int} {S : List Nat} {x : Row} {data : Nat → Row}

/-- The test of cell `n` has been applied to the rows and to the rule. -/
def Applied (mem : Mem) (S : List Nat) (x : Row) (data : Nat → Row) (n : Int) (st : PState) : Prop :=
  inS S (mem.feat n) = true →
    (x (mem.feat n).toNat ≤ mem.thr n → (∀ i ∈ st.rows, ¬ mem.thr n < data i (mem.feat n).toNat) ∧ (st.rule (mem.feat n).toNat).2 ≤ mem.thr n) ∧
    (¬ x (mem.feat n).toNat ≤ mem.thr n → (∀ i ∈ st.rows, ¬ data i (mem.feat n).toNat ≤ mem.thr n) ∧ mem.thr n ≤ (st.rule (mem.feat n).toNat).1)

theorem visit_rows_sub (n : Int) (st : PState) : (mem.visit push S x data n st).rows.Sublist st.rows := by
  unfold Mem.visit
  simp only
  split
  · split <;> exact List.filter_sublist
  · exact List.Sublist.refl _

theorem Applied.mono {n : Int} {st st' : PState} (h : Applied mem S x data n st) (h1 : st'.rows.Sublist st.rows) (h2 : st'.rule.le st.rule) :
    Applied mem S x data n st' := fun hS =>
  ⟨fun hx => ⟨fun i hi => ((h hS).1 hx).1 i (h1.subset hi), (h2 _).2.trans ((h hS).1 hx).2⟩,
    fun hx => ⟨fun i hi => ((h hS).2 hx).1 i (h1.subset hi), ((h hS).2 hx).2.trans (h2 _).1⟩⟩

theorem applied_visit (n : Int) (st : PState) : Applied mem S x data n (mem.visit push S x data n st) := by
  intro hS
  unfold Mem.visit
  simp only [hS, if_true]
  refine ⟨fun hx => ?_, fun hx => ?_⟩
  · simp only [hx, if_true]
    exact ⟨fun i hi => by simpa using (List.mem_filter.1 hi).2, Rule.below_hi _ _ _⟩
  · simp only [hx, if_false]
    exact ⟨fun i hi => by simpa using (List.mem_filter.1 hi).2, Rule.above_lo _ _ _⟩

theorem below_same {r : Rule} {f : Nat} {t : ℚ} (h : (r f).2 ≤ t) : r.below f t = r := by
  funext j
  unfold Rule.below
  by_cases hj : j = f
  · subst hj
    by_cases hle : t ≤ (r j).2
    · simp only [if_true, hle]
      exact Prod.ext rfl (le_antisymm hle h)
    · simp only [if_true, hle, if_false]
  · simp only [hj, if_false]

theorem above_same {r : Rule} {f : Nat} {t : ℚ} (h : t ≤ (r f).1) : r.above f t = r := by
  funext j
  unfold Rule.above
  by_cases hj : j = f
  · subst hj
    by_cases hle : (r j).1 ≤ t
    · simp only [if_true, hle]
      exact Prod.ext (le_antisymm h hle) rfl
    · simp only [if_true, hle, if_false]
  · simp only [hj, if_false]

theorem visit_applied {n : Int} {st : PState} (h : Applied mem S x data n st) :
    (mem.visit push S x data n st).rows = st.rows ∧ (mem.visit push S x data n st).rule = st.rule := by
  unfold Mem.visit
  simp only
  split
  · rename_i hS
    split
    · rename_i hx
      obtain ⟨h1, h2⟩ := (h hS).1 hx
      exact ⟨List.filter_eq_self.2 fun i hi => by simpa using h1 i hi, below_same h2⟩
    · rename_i hx
      obtain ⟨h1, h2⟩ := (h hS).2 hx
      exact ⟨List.filter_eq_self.2 fun i hi => by simpa using h1 i hi, above_same h2⟩
  · exact ⟨rfl, rfl⟩

theorem below_mono {r r' : Rule} (h : r.le r') (f : Nat) (t : ℚ) : (r.below f t).le (r'.below f t) := by
  intro j
  have h1 := h j
  unfold Rule.below
  by_cases hj : j = f
  · subst hj
    simp only [if_true]
    obtain ⟨h1, h2⟩ := h1
    split <;> split <;> constructor <;> (try dsimp only) <;> linarith
  · simp only [hj, if_false]; exact h1

theorem above_mono {r r' : Rule} (h : r.le r') (f : Nat) (t : ℚ) : (r.above f t).le (r'.above f t) := by
  intro j
  have h1 := h j
  unfold Rule.above
  by_cases hj : j = f
  · subst hj
    simp only [if_true]
    obtain ⟨h1, h2⟩ := h1
    split <;> split <;> constructor <;> (try dsimp only) <;> linarith
  · simp only [hj, if_false]; exact h1

/-- Two walks that have visited the same cells. -/
def Alike (a b : PState) : Prop := a.child = b.child ∧ a.rows = b.rows ∧ a.rule.le b.rule

theorem alike_visit {a b : PState} (h : Alike a b) (n : Int) : Alike (mem.visit push S x data n a) (mem.visit push S x data n b) := by
  obtain ⟨h1, h2, h3⟩ := h
  unfold Mem.visit
  simp only
  split
  · split
    · exact ⟨by simp only [h1], by simp only [h2], below_mono h3 _ _⟩
    · exact ⟨by simp only [h1], by simp only [h2], above_mono h3 _ _⟩
  · exact ⟨by simp only [h1], h2, h3⟩

/-- The first walk uses rows of the second and has a tighter rule. -/
def Finer (a b : PState) : Prop := a.rows.Sublist b.rows ∧ a.rule.le b.rule

theorem Finer.visit {a b : PState} (h : Finer a b) (n : Int) : Finer (mem.visit push S x data n a) b :=
  ⟨(visit_rows_sub n a).trans h.1, Rule.le_trans (visit_rule_le n a) h.2⟩

theorem Alike.finer {a b : PState} (h : Alike a b) : Finer a b := ⟨h.2.1 ▸ List.Sublist.refl _, h.2.2⟩

/-- The first cell of the list is `h0` or a cell without a test on `S`. -/
def HeadIs (F : Int → Prop) (h0 : Int) (child : List Int) : Prop := ∃ h l, child = h :: l ∧ (h = h0 ∨ F h)

/-- What the walk needs to know about the order in which cells are inserted. -/
structure Tame (mem : Mem) (push : List Int → Int → List Int) (S : List Nat) (F : Int → Prop) (N : Int → Int → Prop) (I : List Int → Prop) : Prop where
  quiet : ∀ n, F n → inS S (mem.feat n) = false
  refl : ∀ h, N h h
  free : ∀ h n, F n → N h n
  start : ∀ a, I (push [] a)
  keep : ∀ l a, I l → I (push l a)
  head : ∀ l, I l → ∃ h t, l = h :: t ∧ ∀ n ∈ l, N h n
  left : ∀ h n l, N h n → HeadIs F h l → HeadIs F h (push l (mem.lc n))
  right : ∀ h n l, N h n → HeadIs F h l → HeadIs F h (push l (mem.rc n))

variable {F : Int → Prop} {N : Int → Int → Prop} {I : List Int → Prop}

theorem Tame.step (T : Tame mem push S F N I) {h0 n : Int} {st : PState} (hn : N h0 n) (h : HeadIs F h0 st.child) :
    HeadIs F h0 (mem.visit push S x data n st).child := by
  unfold Mem.visit
  simp only
  split
  · split
    · exact T.left _ _ _ hn h
    · exact T.right _ _ _ hn h
  · exact T.right _ _ _ hn (T.left _ _ _ hn h)

theorem Tame.inv (T : Tame mem push S F N I) {n : Int} {st : PState} (h : I st.child) : I (mem.visit push S x data n st).child := by
  unfold Mem.visit
  simp only
  split
  · split <;> exact T.keep _ _ h
  · exact T.keep _ _ (T.keep _ _ h)

theorem Tame.stuck (T : Tame mem push S F N I) {h0 : Int} {minSize : Nat} : ∀ (k : Nat) (st : PState), st.rows.length < minSize →
    Applied mem S x data h0 st → HeadIs F h0 st.child →
    (mem.levels push S x data minSize k st.child st).rows = st.rows ∧ (mem.levels push S x data minSize k st.child st).rule = st.rule
  | 0, _, _, _, _ => ⟨rfl, rfl⟩
  | k + 1, st, hlen, hap, hh => by
    obtain ⟨h, l, e, hd⟩ := id hh
    have hN : N h0 h := by
      rcases hd with rfl | hF
      · exact T.refl _
      · exact T.free _ _ hF
    have hq : Applied mem S x data h st := by
      rcases hd with rfl | hF
      · exact hap
      · exact fun hS => by rw [T.quiet _ hF] at hS; cases hS
    obtain ⟨h1, h2⟩ := visit_applied (push := push) hq
    have hs : mem.scan push S x data minSize st.child st = mem.visit push S x data h st := by
      rw [e]
      unfold Mem.scan
      simp only [h1, hlen, if_true]
    unfold Mem.levels
    simp only
    rw [hs]
    have ih := T.stuck k (mem.visit push S x data h st) (by rw [h1]; exact hlen) (hap.mono (visit_rows_sub _ _) (visit_rule_le _ _)) (T.step hN hh)
    rw [ih.1, ih.2]
    exact ⟨h1, h2⟩

theorem Tame.scan_pair (T : Tame mem push S F N I) {h0 : Int} {s s' : Nat} (hs : s ≤ s') : ∀ (nodes : List Int) (a b : PState), Alike a b →
    (∀ n ∈ nodes, N h0 n) → HeadIs F h0 b.child → (nodes.head? = some h0 ∨ Applied mem S x data h0 b) →
    Alike (mem.scan push S x data s nodes a) (mem.scan push S x data s' nodes b) ∨
    ((mem.scan push S x data s' nodes b).rows.length < s' ∧ Finer (mem.scan push S x data s nodes a) (mem.scan push S x data s' nodes b) ∧
      HeadIs F h0 (mem.scan push S x data s' nodes b).child ∧ Applied mem S x data h0 (mem.scan push S x data s' nodes b))
  | [], a, b, h, _, _, _ => Or.inl h
  | n :: ns, a, b, h, hn, hh, hd => by
    have hv := alike_visit (mem := mem) (push := push) (S := S) (x := x) (data := data) h n
    have hhead : HeadIs F h0 (mem.visit push S x data n b).child := T.step (hn n (by simp)) hh
    have hap : Applied mem S x data h0 (mem.visit push S x data n b) := by
      rcases hd with e | hap
      · have : n = h0 := by simpa using e
        subst this
        exact applied_visit _ _
      · exact hap.mono (visit_rows_sub _ _) (visit_rule_le _ _)
    unfold Mem.scan
    simp only
    by_cases hb : (mem.visit push S x data n b).rows.length < s'
    · rw [if_pos hb]
      by_cases ha : (mem.visit push S x data n a).rows.length < s
      · rw [if_pos ha]; exact Or.inl hv
      · rw [if_neg ha]
        exact Or.inr ⟨hb, scan_induct (P := fun st => Finer st (mem.visit push S x data n b)) (fun n st h => h.visit n) ns _ hv.finer, hhead, hap⟩
    · have ha : ¬ (mem.visit push S x data n a).rows.length < s := by rw [hv.2.1]; omega
      rw [if_neg hb, if_neg ha]
      exact T.scan_pair hs ns _ _ hv (fun m hm => hn m (by simp [hm])) hhead (Or.inr hap)

theorem Tame.levels_pair (T : Tame mem push S F N I) {s s' : Nat} (hs : s ≤ s') : ∀ (k : Nat) (a b : PState), Alike a b → I b.child →
    Finer (mem.levels push S x data s k a.child a) (mem.levels push S x data s' k b.child b)
  | 0, _, _, h, _ => h.finer
  | k + 1, a, b, h, hI => by
    obtain ⟨h0, t, e, hN⟩ := T.head _ hI
    unfold Mem.levels
    simp only
    rw [h.1]
    rcases T.scan_pair (x := x) (data := data) (h0 := h0) hs b.child a b h hN ⟨h0, t, e, Or.inl rfl⟩ (Or.inl (by rw [e]; rfl)) with h' | ⟨h1, h2, h3, h4⟩
    · exact T.levels_pair hs k _ _ h' (scan_induct (P := fun st => I st.child) (fun n st h => T.inv h) _ _ hI)
    · have hst := T.stuck k _ h1 h4 h3
      have := levels_induct (mem := mem) (push := push) (S := S) (x := x) (data := data) (minSize := s)
        (P := fun st => Finer st (mem.scan push S x data s' b.child b)) (fun n st h => h.visit n) k (mem.scan push S x data s b.child a).child _ h2
      exact ⟨by rw [hst.1]; exact this.1, by rw [hst.2]; exact this.2⟩

theorem Tame.run_pair (T : Tame mem push S F N I) {s s' : Nat} (hs : s ≤ s') (maxDepth n : Nat) {r r' : Rule} (hr : r.le r') :
    (mem.run push S x data s maxDepth n r).1.Sublist (mem.run push S x data s' maxDepth n r').1 ∧
    (mem.run push S x data s maxDepth n r).2.le (mem.run push S x data s' maxDepth n r').2 := by
  have h0 : Alike ⟨[], List.range n, r⟩ ⟨[], List.range n, r'⟩ := ⟨rfl, rfl, hr⟩
  have hscan : ∀ (s : Nat) (st : PState), mem.scan push S x data s [0] st = mem.visit push S x data 0 st := by
    intro s st
    unfold Mem.scan
    simp only
    split
    · rfl
    · rfl
  unfold Mem.run
  simp only
  cases maxDepth with
  | zero => exact h0.finer
  | succ k =>
    unfold Mem.levels
    simp only [hscan]
    refine T.levels_pair hs k _ _ (alike_visit h0 0) ?_
    unfold Mem.visit
    simp only
    split
    · split <;> exact T.start _
    · exact T.keep _ _ (T.start _)

theorem tame_pushBack (mem : Mem) (S : List Nat) : Tame mem pushBack S (fun _ => False) (fun _ _ => True) (fun l => l ≠ []) where
  quiet := fun _ h => h.elim
  refl := fun _ => trivial
  free := fun _ _ _ => trivial
  start := fun a => by simp [pushBack]
  keep := fun l a _ => by simp [pushBack]
  head := fun l h => by
    obtain ⟨a, t, rfl⟩ := List.exists_cons_of_ne_nil h
    exact ⟨a, t, rfl, fun _ _ => trivial⟩
  left := fun h n l _ ⟨a, t, e, h1⟩ => ⟨a, t ++ [mem.lc n], by rw [e]; rfl, h1⟩
  right := fun h n l _ ⟨a, t, e, h1⟩ => ⟨a, t ++ [mem.rc n], by rw [e]; rfl, h1⟩

theorem setInsert_head (h a : Int) (l : List Int) : ∃ t, setInsert (h :: l) a = min h a :: t := by
  unfold setInsert
  split
  · exact ⟨_, by rw [min_eq_right (by omega)]⟩
  · split
    · exact ⟨_, by rw [min_eq_left (by omega)]⟩
    · exact ⟨_, by rw [min_eq_left (by omega)]⟩

/-- Children are numbered after their parent (the numbering of sklearn and ranger). -/
def Increasing (t : TreeArr) : Prop := ∀ n < t.size, 0 ≤ t.left n → (n : Int) < t.left n ∧ (n : Int) < t.right n

theorem tame_setInsert {S : List Nat} (hb : mem.Benign S) (hl : ∀ n, 0 ≤ n → mem.lc n < 0 ∨ n < mem.lc n) (hr : ∀ n, 0 ≤ n → mem.rc n < 0 ∨ n < mem.rc n) :
    Tame mem setInsert S (fun n => n < 0) (fun h n => h ≤ n ∨ n < 0) (fun l => ∃ h t, l = h :: t ∧ ∀ n ∈ l, h ≤ n) where
  quiet := fun n h => (hb n h).1
  refl := fun _ => Or.inl (le_refl _)
  free := fun _ _ h => Or.inr h
  start := fun a => ⟨a, [], rfl, fun n hn => (List.mem_singleton.1 hn).ge⟩
  keep := by
    rintro l a ⟨h, t, rfl, h1⟩
    obtain ⟨t', e⟩ := setInsert_head h a t
    refine ⟨_, t', e, fun n hn => ?_⟩
    rcases (mem_setInsert _ _ _).1 hn with rfl | hn
    · exact min_le_right _ _
    · exact (min_le_left _ _).trans (h1 n hn)
  head := fun l ⟨h, t, e, h1⟩ => ⟨h, t, e, fun n hn => Or.inl (h1 n hn)⟩
  left := by
    rintro h n l hn ⟨a, t, rfl, h1⟩
    obtain ⟨t', e⟩ := setInsert_head a (mem.lc n) t
    refine ⟨_, t', e, ?_⟩
    by_cases h0 : n < 0
    · have := (hb n h0).2.1
      exact Or.inr (lt_of_le_of_lt (min_le_right _ _) this)
    · have h2 := hl n (by omega)
      simp only at *
      omega
  right := by
    rintro h n l hn ⟨a, t, rfl, h1⟩
    obtain ⟨t', e⟩ := setInsert_head a (mem.rc n) t
    refine ⟨_, t', e, ?_⟩
    by_cases h0 : n < 0
    · have := (hb n h0).2.2
      exact Or.inr (lt_of_le_of_lt (min_le_right _ _) this)
    · have h2 := hr n (by omega)
      simp only at *
      omega

theorem forest_pair {s s' maxDepth n : Nat} : ∀ (mems : List Mem) (r r' : Rule), r.le r' →
    (∀ mem ∈ mems, ∀ r r' : Rule, r.le r' → (mem.run push S x data s maxDepth n r).1.Sublist (mem.run push S x data s' maxDepth n r').1 ∧
      (mem.run push S x data s maxDepth n r).2.le (mem.run push S x data s' maxDepth n r').2) →
    List.Forall₂ List.Sublist (forestRun push S x data s maxDepth n mems r).1 (forestRun push S x data s' maxDepth n mems r').1 ∧
    (forestRun push S x data s maxDepth n mems r).2.le (forestRun push S x data s' maxDepth n mems r').2
  | [], _, _, h, _ => ⟨.nil, h⟩
  | m :: ms, r, r', h, hrun => by
    have h1 := hrun m (by simp) r r' h
    have h2 := forest_pair ms _ _ h1.2 fun mem hm => hrun mem (by simp [hm])
    exact ⟨.cons h1.1 h2.1, h2.2⟩

theorem increasing_pair {S : List Nat} {m : Nat} {ts : List TreeArr} {mems : List Mem} (h : List.Forall₂ (TreeIn S m) ts mems)
    (hinc : ∀ t ∈ ts, Increasing t) (x : Row) (data : Nat → Row) {s s' : Nat} (hs : s ≤ s') (maxDepth n : Nat) {r r' : Rule} (hr : r.le r') :
    List.Forall₂ List.Sublist (forestRun setInsert S x data s maxDepth n mems r).1 (forestRun setInsert S x data s' maxDepth n mems r').1 ∧
    (forestRun setInsert S x data s maxDepth n mems r).2.le (forestRun setInsert S x data s' maxDepth n mems r').2 := by
  have h' : List.Forall₂ (TreeIn S m) ts (ts.map fun t => Mem.ofTree t leafJunk) := by
    rw [List.forall₂_map_right_iff, List.forall₂_same]
    intro t ht
    obtain ⟨mem, hm⟩ : ∃ mem, TreeIn S m t mem := by
      clear hinc
      induction h with
      | nil => cases ht
      | cons h1 _ ih =>
        rcases List.mem_cons.1 ht with rfl | ht
        · exact ⟨_, h1⟩
        · exact ih ht
    exact ⟨hm.wf, ofTree_holds _ _, hm.leafChildren, hm.negLeaf, by simp [Mem.BeforeIsLeaf, Mem.ofTree, leafJunk]⟩
  rw [(C24_depends_on_forest_only_partial h h' x data s maxDepth n r).1, (C24_depends_on_forest_only_partial h h' x data s' maxDepth n r').1]
  refine forest_pair _ _ _ hr fun mem hm r r' hr => ?_
  obtain ⟨t, ht, rfl⟩ := List.mem_map.1 hm
  have hlc : ∀ t' ∈ ts, LeafChildren t' := by
    clear hinc h' hm ht
    intro t' ht'
    induction h with
    | nil => cases ht'
    | cons h1 _ ih =>
      rcases List.mem_cons.1 ht' with rfl | ht'
      · exact h1.leafChildren
      · exact ih ht'
  refine (tame_setInsert (ofTree_leafJunk_benign t S) ?_ ?_).run_pair hs maxDepth n hr
  all_goals
    intro k hk
    obtain ⟨i, rfl⟩ := Int.eq_ofNat_of_zero_le hk
    by_cases hi : i < t.size
    · have : (0 : Int) ≤ i ∧ (i : Int) < t.size := by omega
      simp only [Mem.ofTree, this, and_self, if_true, Int.toNat_natCast]
      by_cases h0 : 0 ≤ t.left i
      · have := hinc t ht i hi h0
        omega
      · have := hlc t ht i hi (by omega)
        omega
    · have : ¬ ((0 : Int) ≤ i ∧ (i : Int) < t.size) := by omega
      simp [Mem.ofTree, hi, leafJunk]

/-! ### estimates -/

theorem cellSum_pos_iff {cells : List (List Nat)} {f : Nat → ℚ} (hf : ∀ i, 0 ≤ f i) : 0 < cellSum cells f ↔ ∃ c ∈ cells, ∃ i ∈ c, 0 < f i := by
  constructor
  · intro h
    by_contra hne
    push Not at hne
    have : cellSum cells f = cellSum cells fun _ => 0 := cellSum_congr fun c hc i hi => le_antisymm (hne c hc i hi) (hf i)
    rw [this, cellSum_zero] at h
    exact lt_irrefl _ h
  · rintro ⟨c, hc, i, hi, hpos⟩
    have hl : (0 : ℚ) < cells.length := by exact_mod_cast List.length_pos_of_mem hc
    have hcl : (0 : ℚ) < c.length := by exact_mod_cast List.length_pos_of_mem hi
    have hterm : ∀ (c : List Nat) (i : Nat), 0 ≤ 1 / ((cells.length : ℚ) * c.length) * f i := fun c i =>
      mul_nonneg (div_nonneg zero_le_one (mul_nonneg hl.le (Nat.cast_nonneg _))) (hf i)
    have h1 : 1 / ((cells.length : ℚ) * c.length) * f i ≤ (c.map fun i => 1 / ((cells.length : ℚ) * c.length) * f i).sum :=
      List.single_le_sum (by
        intro v hv
        obtain ⟨j, _, rfl⟩ := List.mem_map.1 hv
        exact hterm c j) _ (List.mem_map_of_mem hi)
    have h2 : (c.map fun i => 1 / ((cells.length : ℚ) * c.length) * f i).sum ≤ cellSum cells f :=
      List.single_le_sum (by
        intro v hv
        obtain ⟨d, _, rfl⟩ := List.mem_map.1 hv
        exact List.sum_nonneg fun w hw => by
          obtain ⟨j, _, rfl⟩ := List.mem_map.1 hw
          exact hterm d j) _ (List.mem_map_of_mem hc)
    have h3 : 0 < 1 / ((cells.length : ℚ) * c.length) * f i := mul_pos (div_pos one_pos (mul_pos hl hcl)) hpos
    linarith

theorem cellSum_pos_mono {cells cells' : List (List Nat)} (h : List.Forall₂ List.Sublist cells cells') {f : Nat → ℚ} (hf : ∀ i, 0 ≤ f i)
    (hp : 0 < cellSum cells f) : 0 < cellSum cells' f := by
  rw [cellSum_pos_iff hf] at hp ⊢
  obtain ⟨c, hc, i, hi, hpos⟩ := hp
  induction h with
  | nil => cases hc
  | cons h1 _ ih =>
    rcases List.mem_cons.1 hc with rfl | hc
    · exact ⟨_, List.mem_cons_self, i, h1.subset hi, hpos⟩
    · obtain ⟨c', hc', h2⟩ := ih hc
      exact ⟨c', List.mem_cons_of_mem _ hc', h2⟩

theorem ruleWeights_cellSum (mems : List Mem) (S : List Nat) (x : Row) (data : Nat → Row) (minSize maxDepth N i : Nat) :
    ruleWeights mems S x data minSize maxDepth N i = cellSum (cellsSet mems S x data minSize maxDepth N) fun j => if j = i then 1 else 0 := by
  unfold ruleWeights cellSum
  simp only
  congr 1
  refine List.map_congr_left fun c hc => ?_
  clear hc
  generalize 1 / (((cellsSet mems S x data minSize maxDepth N).length : ℚ) * c.length) = q
  induction c with
  | nil => simp
  | cons a l ih =>
    rw [List.map_cons, List.sum_cons, ← ih, List.count_cons]
    by_cases ha : a = i
    · simp [ha]; ring
    · simp [ha]

/-- **C135, distribution functions**: raising `min_node_size` keeps every background row that a tree uses, so outputs that are possible
stay possible. -/
theorem C135_cdf (mems : List Mem) (S : List Nat) (x : Row) (data : Nat → Row) {s s' : Nat} (hs : s ≤ s') (maxDepth N : Nat) :
    List.Forall₂ List.Sublist (cellsVec mems S x data s maxDepth N) (cellsVec mems S x data s' maxDepth N) ∧
    ∀ (y : Nat → ℚ) (a : ℚ), 0 < cdfRf mems S x data y s maxDepth N a → 0 < cdfRf mems S x data y s' maxDepth N a := by
  have h := (forest_pair (push := pushBack) (S := S) (x := x) (data := data) (s := s) (s' := s') (maxDepth := maxDepth) (n := N) mems _ _
    (Rule.le_refl Rule.init) fun mem _ r r' hr => (tame_pushBack mem S).run_pair hs maxDepth N hr).1
  exact ⟨h, fun y a hp => cellSum_pos_mono h (fun i => (ind_range _).1) hp⟩

/-- **C135, probabilities and rules, partial**: in a forest whose trees number children after their parents, raising `min_node_size` keeps
every background row that a tree uses. Rows with a weight keep a weight, a positive SDP stays positive, and the rule only widens.
Missing (false): other numberings (`C135_numbering_false`). -/
theorem C135_rules_partial {S : List Nat} {m : Nat} {ts : List TreeArr} {mems : List Mem} (h : List.Forall₂ (TreeIn S m) ts mems)
    (hinc : ∀ t ∈ ts, Increasing t) (x : Row) (data : Nat → Row) {s s' : Nat} (hs : s ≤ s') (maxDepth N : Nat) :
    List.Forall₂ List.Sublist (cellsSet mems S x data s maxDepth N) (cellsSet mems S x data s' maxDepth N) ∧
    (∀ i, 0 < ruleWeights mems S x data s maxDepth N i → 0 < ruleWeights mems S x data s' maxDepth N i) ∧
    ∀ (yx : ℚ) (y : Nat → ℚ) (classifier : Bool) (t : ℚ × ℚ),
      (0 < sdpRf mems S x yx data y s maxDepth N classifier t → 0 < sdpRf mems S x yx data y s' maxDepth N classifier t) ∧
      (∀ j, ((sdpRule mems S x yx data y s' maxDepth N classifier t).2 j).1 ≤ ((sdpRule mems S x yx data y s maxDepth N classifier t).2 j).1 ∧
        ((sdpRule mems S x yx data y s maxDepth N classifier t).2 j).2 ≤ ((sdpRule mems S x yx data y s' maxDepth N classifier t).2 j).2) ∧
      ∀ d z, InRule d (sdpRule mems S x yx data y s maxDepth N classifier t).2 z → InRule d (sdpRule mems S x yx data y s' maxDepth N classifier t).2 z := by
  obtain ⟨h1, h2⟩ := increasing_pair h hinc x data hs maxDepth N (Rule.le_refl Rule.init)
  refine ⟨h1, fun i => ?_, fun yx y classifier t => ⟨cellSum_pos_mono h1 (fun i => (ind_range _).1), h2, fun d z hz j hj => ?_⟩⟩
  · rw [ruleWeights_cellSum, ruleWeights_cellSum]
    exact cellSum_pos_mono h1 fun j => by split <;> norm_num
  · exact ⟨lt_of_le_of_lt (h2 j).1 (hz j hj).1, (hz j hj).2.trans (h2 j).2⟩

theorem ladderTree_increasing : Increasing ladderTree := by unfold Increasing ladderTree; decide

theorem rootSplit_increasing : Increasing rootSplit := by unfold Increasing rootSplit; decide

/-- A forest of two trees in which a larger `min_node_size` brings rows back. -/
example : (∀ t ∈ [ladderTree, rootSplit], Increasing t) ∧
    cellsSet [Mem.ofTree ladderTree leafJunk, Mem.ofTree rootSplit leafJunk] [0, 1, 2] (diag 4) diag 1 3 10 = [[4, 5], [2, 3, 4, 5, 6, 7, 8, 9]] ∧
    cellsSet [Mem.ofTree ladderTree leafJunk, Mem.ofTree rootSplit leafJunk] [0, 1, 2] (diag 4) diag 9 3 10 =
      [[4, 5, 6, 7, 8, 9], [2, 3, 4, 5, 6, 7, 8, 9]] ∧
    List.Forall₂ (TreeIn [0, 1, 2] 3) [ladderTree, rootSplit] [Mem.ofTree ladderTree leafJunk, Mem.ofTree rootSplit leafJunk] := by
  refine ⟨?_, by decide +kernel, by decide +kernel, .cons (ladderTree_in _) (.cons (rootSplit_in _) .nil)⟩
  intro t ht
  rcases List.mem_cons.1 ht with rfl | ht
  · exact ladderTree_increasing
  · rw [List.mem_singleton] at ht
    exact ht ▸ rootSplit_increasing

/-- The claim for the functions that use sets of nodes. -/
def C135_numbering_claim : Prop :=
  ∀ (S : List Nat) (m : Nat) (ts : List TreeArr) (mems : List Mem), List.Forall₂ (TreeIn S m) ts mems →
  ∀ (x : Row) (data : Nat → Row) (s s' maxDepth N : Nat), s ≤ s' →
    List.Forall₂ List.Sublist (cellsSet mems S x data s maxDepth N) (cellsSet mems S x data s' maxDepth N)

/-- ```
0: x4 <= 0 ? 3 : 4
3: x0 <= 0 ? 2 : 5        4: x1 <= 0 ? 1 : 6
2: x2 <= 0 ? 9 : 10       1: x3 <= 0 ? 7 : 8
``` -/
def crossTree : TreeArr where
  size := 11
  left := fun n => ([3, 7, 9, 2, 1, -1, -1, -1, -1, -1, -1] : List Int).getD n (-1)
  right := fun n => ([4, 8, 10, 5, 6, -1, -1, -1, -1, -1, -1] : List Int).getD n (-1)
  dflt := fun n => ([3, 7, 9, 2, 1, -1, -1, -1, -1, -1, -1] : List Int).getD n (-1)
  feature := fun n => ([4, 3, 2, 0, 1, -2, -2, -2, -2, -2, -2] : List Int).getD n (-2)
  threshold := fun _ => 0
  value := fun _ _ => 0
  weight := fun _ => 1

theorem crossTree_in (S : List Nat) : TreeIn S 5 crossTree (Mem.ofTree crossTree leafJunk) where
  wf := ⟨.node 0 4 0 (.node 3 0 0 (.node 2 2 0 (.leaf 9) (.leaf 10)) (.leaf 5)) (.node 4 1 0 (.node 1 3 0 (.leaf 7) (.leaf 8)) (.leaf 6)), {
    root := rfl
    enc := by simp [Encodes, crossTree, BTree.id]
    nodup := by decide
    all := by intro n; simp [BTree.ids, crossTree]; omega
    vars := by simp [BTree.vars] }⟩
  holds := ofTree_holds _ _
  leafChildren := by unfold LeafChildren crossTree; decide
  negLeaf := by unfold NegLeafFeature crossTree; decide
  before := by simp [Mem.BeforeIsLeaf, Mem.ofTree, leafJunk]

/-- **Other numberings**: the walk that stops early goes on with the lowest-numbered node it knows, so a larger `min_node_size` can apply
a test that a smaller one never reaches: here the row used with 2 is not used with 3. -/
theorem C135_numbering_false : ¬ C135_numbering_claim := by
  intro h
  have := h [0, 1, 2, 3] 5 [crossTree] [Mem.ofTree crossTree leafJunk] (.cons (crossTree_in _) .nil) (fun _ => 0)
    (fun i j => if (i = 0 ∧ j = 0) ∨ (i = 1 ∧ j = 2) ∨ (i = 2 ∧ j = 3) then 1 else 0) 2 3 3 3 (by decide)
  rw [show cellsSet [Mem.ofTree crossTree leafJunk] [0, 1, 2, 3] (fun _ => 0)
    (fun i j => if (i = 0 ∧ j = 0) ∨ (i = 1 ∧ j = 2) ∨ (i = 2 ∧ j = 3) then 1 else 0) 2 3 3 = [[1]] by decide +kernel,
    show cellsSet [Mem.ofTree crossTree leafJunk] [0, 1, 2, 3] (fun _ => 0)
    (fun i j => if (i = 0 ∧ j = 0) ∨ (i = 1 ∧ j = 2) ∨ (i = 2 ∧ j = 3) then 1 else 0) 3 3 3 = [[2]] by decide +kernel] at this
  cases this with
  | cons h1 _ => exact absurd (h1.subset (List.mem_singleton.2 rfl)) (by decide)

/-- The claim for the Python versions. -/
def C135_python_claim : Prop :=
  ∀ (S : List Nat) (m : Nat) (t : TreeArr) (mem : Mem), TreeIn S m t mem → Increasing t →
  ∀ (x : Row) (data : Nat → Row) (s s' maxDepth N : Nat), s ≤ s' →
    (mem.cellPy S x data s maxDepth N).Sublist (mem.cellPy S x data s' maxDepth N)

/-- **The Python versions**: a test that is refused because it leaves too few rows makes room for a later one, so a row used with 2 is
dropped with 3. -/
theorem C135_python_false : ¬ C135_python_claim := by
  intro h
  have := h [0, 1, 2] 3 ladderTree _ (ladderTree_in _) ladderTree_increasing (fun _ => 4)
    (fun i j => if j = 0 then (if i < 2 then 4 else 0) else if j = 1 then (if i = 0 then 0 else 4) else 4) 2 3 2 4 (by decide)
  have := this.subset (show 0 ∈ _ by decide +kernel)
  revert this
  decide +kernel

end Acv
