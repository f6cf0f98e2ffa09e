import Verif.Spec.Recognise
import Verif.Props.Ensemble

/-!
# C107: a model that is accepted can be explained
-/

namespace Acv

theorem rsplitDot_some {l m c : List Char} : rsplitDot l = some (m, c) ↔ l = m ++ '.' :: c ∧ '.' ∉ c := by
  induction l generalizing m c with
  | nil => simp [rsplitDot]
  | cons a l ih =>
    have hnone : rsplitDot l = none ↔ '.' ∉ l := by
      constructor
      · intro h hm
        obtain ⟨s, t, rfl⟩ := List.append_of_mem hm
        -- take the last dot
        have : ∀ (t s : List Char), ∃ m c, s ++ '.' :: t = m ++ '.' :: c ∧ '.' ∉ c := by
          intro t
          induction t using List.reverseRecOn with
          | nil => intro s; exact ⟨s, [], rfl, by simp⟩
          | append_singleton t z iht =>
            intro s
            by_cases hz : z = '.'
            · exact ⟨s ++ '.' :: t, [], by simp [hz], by simp⟩
            · obtain ⟨m, c, h1, h2⟩ := iht s
              exact ⟨m, c ++ [z], by rw [← List.cons_append, ← List.append_assoc, h1]; simp, by simp [h2, Ne.symm hz]⟩
        obtain ⟨m, c, h1, h2⟩ := this t s
        rw [ih.mpr ⟨h1, h2⟩] at h
        cases h
      · intro h
        cases hr : rsplitDot l with
        | none => rfl
        | some q => exact absurd ((ih (m := q.1) (c := q.2)).mp hr).1 (fun e => h (by rw [e]; simp))
    rw [rsplitDot]
    cases hr : rsplitDot l with
    | some q =>
      obtain ⟨m', c'⟩ := q
      obtain ⟨h1, h2⟩ := ih.mp hr
      simp only [Option.some.injEq, Prod.mk.injEq]
      constructor
      · rintro ⟨rfl, rfl⟩
        exact ⟨by rw [h1]; rfl, h2⟩
      · rintro ⟨h3, h4⟩
        cases m with
        | nil =>
          simp only [List.nil_append, List.cons.injEq] at h3
          exact absurd (by rw [← h3.2, h1]; simp) h4
        | cons z m =>
          simp only [List.cons_append, List.cons.injEq] at h3
          have := ih.mpr ⟨h3.2, h4⟩
          rw [hr] at this
          simp only [Option.some.injEq, Prod.mk.injEq] at this
          exact ⟨by rw [h3.1, this.1], this.2⟩
    | none =>
      have hl := hnone.mp hr
      simp only
      split
      · next ha =>
        subst ha
        simp only [Option.some.injEq, Prod.mk.injEq]
        constructor
        · rintro ⟨rfl, rfl⟩; exact ⟨rfl, hl⟩
        · rintro ⟨h3, h4⟩
          cases m with
          | nil => simp only [List.nil_append, List.cons.injEq] at h3; exact ⟨rfl, h3.2⟩
          | cons z m =>
            simp only [List.cons_append, List.cons.injEq] at h3
            exact absurd (by rw [h3.2]; simp) hl
      · next ha =>
        simp only [reduceCtorEq, false_iff]
        rintro ⟨h3, h4⟩
        cases m with
        | nil => simp only [List.nil_append, List.cons.injEq] at h3; exact ha h3.1
        | cons z m =>
          simp only [List.cons_append, List.cons.injEq] at h3
          exact hl (by rw [h3.2]; simp)

theorem rsplitDot_none {l : List Char} : rsplitDot l = none ↔ '.' ∉ l := by
  constructor
  · intro h hm
    have : ∀ l : List Char, '.' ∈ l → ∃ m c, l = m ++ '.' :: c ∧ '.' ∉ c := by
      intro l
      induction l using List.reverseRecOn with
      | nil => intro h; cases h
      | append_singleton t z iht =>
        intro hm
        by_cases hz : z = '.'
        · exact ⟨t, [], by rw [hz], by simp⟩
        · rw [List.mem_append, List.mem_singleton] at hm
          obtain ⟨m, c, h1, h2⟩ := iht (hm.resolve_right (Ne.symm hz))
          exact ⟨m, c ++ [z], by rw [h1]; simp, by simp [h2, Ne.symm hz]⟩
    obtain ⟨m, c, h1, h2⟩ := this l hm
    rw [rsplitDot_some.mpr ⟨h1, h2⟩] at h
    cases h
  · intro h
    cases hr : rsplitDot l with
    | none => rfl
    | some q => exact absurd (rsplitDot_some (m := q.1) (c := q.2)|>.mp hr).1 (fun e => h (by rw [e]; simp))

/-- **C107, safe_isinstance.** With a dot in every path the answer is `True` exactly if the object is an instance of a class bound to one of the paths in
an imported module. A path without a dot, and an argument that is not a string, list or tuple, raise ValueError. -/
theorem C107_isinstance (py : Imported) (o : PyObj) :
    (∀ ps : List String, (∀ p ∈ ps, '.' ∈ p.toList) →
      (safeIsInstance py o ps = .ok true ↔ ∃ p ∈ ps, Names py o p) ∧ (safeIsInstance py o ps = .ok false ↔ ¬ ∃ p ∈ ps, Names py o p)) ∧
    (∀ (ps qs : List String) (q : String), (∀ p ∈ ps, '.' ∈ p.toList ∧ ¬ Names py o p) → '.' ∉ q.toList →
      safeIsInstance py o (ps ++ q :: qs) = .error .valueError) ∧
    safeIsInstanceArg py o .other = .error .valueError := by
  have hstep : ∀ (p : String) (ps : List String), '.' ∈ p.toList →
      (Names py o p ∧ safeIsInstance py o (p :: ps) = .ok true) ∨ (¬ Names py o p ∧ safeIsInstance py o (p :: ps) = safeIsInstance py o ps) := by
    intro p ps hp
    rw [safeIsInstance]
    cases hr : rsplitDot p.toList with
    | none => exact absurd hp (rsplitDot_none.mp hr)
    | some q =>
      obtain ⟨m, c⟩ := q
      obtain ⟨h1, h2⟩ := rsplitDot_some.mp hr
      have huniq : ∀ {m' c'}, p.toList = m' ++ '.' :: c' → '.' ∉ c' → m' = m ∧ c' = c := by
        intro m' c' h3 h4
        have := rsplitDot_some.mpr ⟨h3, h4⟩
        rw [hr] at this
        simp only [Option.some.injEq, Prod.mk.injEq] at this
        exact ⟨this.1.symm, this.2.symm⟩
      simp only
      cases hc : py m c with
      | none =>
        refine Or.inr ⟨?_, rfl⟩
        rintro ⟨m', c', cl, h3, h4, h5, _⟩
        obtain ⟨rfl, rfl⟩ := huniq h3 h4
        rw [hc] at h5
        cases h5
      | some cl =>
        simp only
        by_cases hcl : cl ∈ o.classes
        · exact Or.inl ⟨⟨m, c, cl, h1, h2, hc, hcl⟩, if_pos hcl⟩
        · refine Or.inr ⟨?_, if_neg hcl⟩
          rintro ⟨m', c', cl', h3, h4, h5, h6⟩
          obtain ⟨rfl, rfl⟩ := huniq h3 h4
          rw [hc] at h5
          exact hcl (Option.some.inj h5 ▸ h6)
  refine ⟨fun ps => ?_, fun ps => ?_, ?_⟩
  · induction ps with
    | nil => intro _; exact ⟨by simp [safeIsInstance], by simp [safeIsInstance]⟩
    | cons p ps ih =>
      intro h
      obtain ⟨ih1, ih2⟩ := ih fun q hq => h q (List.mem_cons_of_mem _ hq)
      simp only [List.exists_mem_cons_iff]
      rcases hstep p ps (h p List.mem_cons_self) with ⟨h1, h2⟩ | ⟨h1, h2⟩
      · rw [h2]
        exact ⟨by simp [h1], by simp [h1]⟩
      · rw [h2, ih1, ih2]
        simp [h1]
  · induction ps with
    | nil =>
      intro qs q _ hq
      show safeIsInstance py o (q :: qs) = _
      rw [safeIsInstance, rsplitDot_none.mpr hq]
    | cons p ps ih =>
      intro qs q h hq
      rcases hstep p (ps ++ q :: qs) (h p List.mem_cons_self).1 with ⟨h1, _⟩ | ⟨_, h2⟩
      · exact absurd h1 (h p List.mem_cons_self).2
      · rw [List.cons_append, h2]
        exact ih qs q (fun r hr => h r (List.mem_cons_of_mem _ hr)) hq
  · rfl

theorem hasText_iff (s : List Char) : ∀ l : List Char, hasText s l = true ↔ ∃ a b, l = a ++ s ++ b
  | [] => by
    rw [hasText, List.isEmpty_iff]
    constructor
    · rintro rfl; exact ⟨[], [], rfl⟩
    · rintro ⟨a, b, h⟩
      simp only [List.append_assoc, List.nil_eq, List.append_eq_nil_iff] at h
      exact h.2.1
  | c :: cs => by
    rw [hasText, Bool.or_eq_true, List.isPrefixOf_iff_prefix, hasText_iff s cs]
    constructor
    · rintro (⟨b, h⟩ | ⟨a, b, h⟩)
      · exact ⟨[], b, h.symm⟩
      · exact ⟨c :: a, b, by rw [h]; rfl⟩
    · rintro ⟨a, b, h⟩
      cases a with
      | nil => exact Or.inl ⟨b, h.symm⟩
      | cons z a =>
        simp only [List.cons_append, List.cons.injEq] at h
        exact Or.inr ⟨a, b, h.2⟩

/-- Every path of a table has a dot. -/
def DottedTable (table : List (BranchTest × Branch)) : Prop := ∀ q ∈ table, ∀ ps, q.1 = .instOf ps → ∀ p ∈ ps, '.' ∈ p.toList

theorem eval_meets (py : Imported) (o : PyObj) {t : BranchTest} (h : ∀ ps, t = .instOf ps → ∀ p ∈ ps, '.' ∈ p.toList) :
    (t.eval py o = .ok true ∧ PassesTest py o t) ∨ (t.eval py o = .ok false ∧ ¬ PassesTest py o t) := by
  cases t with
  | isDict => cases hd : o.dict <;> simp [BranchTest.eval, PassesTest, hd]
  | isTreeList => cases hd : o.treeList <;> simp [BranchTest.eval, PassesTest, hd]
  | instOf ps =>
    obtain ⟨h1, h2⟩ := (C107_isinstance py o).1 ps (h ps rfl)
    by_cases hm : ∃ p ∈ ps, Names py o p
    · exact Or.inl ⟨h1.mpr hm, hm⟩
    · exact Or.inr ⟨h2.mpr hm, hm⟩
  | typeHas s =>
    have := hasText_iff s.toList o.typeText.toList
    cases hd : hasText s.toList o.typeText.toList
    · rw [hd] at this
      exact Or.inr ⟨by simp [BranchTest.eval, hd], fun hm => by simpa using this.mpr hm⟩
    · rw [hd] at this
      exact Or.inl ⟨by simp [BranchTest.eval, hd], this.mp rfl⟩

theorem chooseBranch_iff (py : Imported) (o : PyObj) : ∀ table : List (BranchTest × Branch), DottedTable table →
    (∀ b, chooseBranch py o table = .ok b ↔ FirstMet py o table b) ∧
    (∀ e, chooseBranch py o table = .error e ↔ e = .unsupported ∧ ∀ q ∈ table, ¬ PassesTest py o q.1)
  | [], _ => by
    refine ⟨fun b => ⟨fun h => by simp [chooseBranch] at h, ?_⟩, fun e => by simp [chooseBranch, eq_comm]⟩
    rintro ⟨pre, t, post, h, _⟩
    simp at h
  | (t, b₀) :: rest, hd => by
    obtain ⟨ih1, ih2⟩ := chooseBranch_iff py o rest fun q hq => hd q (List.mem_cons_of_mem _ hq)
    rcases eval_meets py o (hd (t, b₀) List.mem_cons_self) with ⟨h1, h2⟩ | ⟨h1, h2⟩
    · rw [chooseBranch, h1]
      simp only
      refine ⟨fun b => ⟨fun h => ?_, ?_⟩, fun e => ⟨fun h => (by cases h), fun h => absurd h2 (h.2 _ List.mem_cons_self)⟩⟩
      · cases h
        exact ⟨[], t, rest, rfl, h2, by simp⟩
      · rintro ⟨pre, t', post, h3, h4, h5⟩
        cases pre with
        | nil =>
          simp only [List.nil_append, List.cons.injEq, Prod.mk.injEq] at h3
          rw [h3.1.2]
        | cons q pre =>
          simp only [List.cons_append, List.cons.injEq] at h3
          exact absurd h2 (by have := h5 q List.mem_cons_self; rwa [← h3.1] at this)
    · rw [chooseBranch, h1]
      simp only
      refine ⟨fun b => ?_, fun e => ?_⟩
      · rw [ih1]
        constructor
        · rintro ⟨pre, t', post, h3, h4, h5⟩
          refine ⟨(t, b₀) :: pre, t', post, by rw [h3]; rfl, h4, ?_⟩
          intro q hq
          rcases List.mem_cons.mp hq with rfl | hq
          · exact h2
          · exact h5 q hq
        · rintro ⟨pre, t', post, h3, h4, h5⟩
          cases pre with
          | nil =>
            simp only [List.nil_append, List.cons.injEq, Prod.mk.injEq] at h3
            exact absurd h4 (by rw [← h3.1.1]; exact h2)
          | cons q pre =>
            simp only [List.cons_append, List.cons.injEq] at h3
            exact ⟨pre, t', post, h3.2, h4, fun r hr => h5 r (List.mem_cons_of_mem _ hr)⟩
      · rw [ih2]
        simp [h2]

theorem branchTable_dotted : DottedTable branchTable := by
  have h : ∀ q ∈ branchTable, (match q.1 with | .instOf ps => ps.all fun p => p.toList.contains '.' | _ => true) = true := by decide +kernel
  intro q hq ps hps p hp
  have := h q hq
  rw [hps] at this
  simpa using (List.all_eq_true.mp this p hp)

/-- **C107, the branch.** The constructor uses the branch of the first condition that the model meets, and raises exactly if it meets none. -/
theorem C107_branch (py : Imported) (o : PyObj) :
    (∀ b, chooseBranch py o branchTable = .ok b ↔ FirstMet py o branchTable b) ∧
    (∀ e, chooseBranch py o branchTable = .error e ↔ e = .unsupported ∧ ∀ q ∈ branchTable, ¬ PassesTest py o q.1) :=
  chooseBranch_iff py o branchTable branchTable_dotted

theorem PassesTest.mono {py py' : Imported} {o o' : PyObj} (hpy : ∀ m c cl, py m c = some cl → py' m c = some cl)
    (ho : ∀ cl ∈ o.classes, cl ∈ o'.classes) (h1 : o.dict = true → o'.dict = true) (h2 : o.treeList = true → o'.treeList = true)
    {t : BranchTest} (ht : ∀ s, t ≠ .typeHas s) (h : PassesTest py o t) : PassesTest py' o' t := by
  cases t with
  | isDict => exact h1 h
  | isTreeList => exact h2 h
  | instOf ps =>
    obtain ⟨p, hp, m, c, cl, e1, e2, e3, e4⟩ := h
    exact ⟨p, hp, m, c, cl, e1, e2, hpy _ _ _ e3, ho _ e4⟩
  | typeHas s => exact absurd rfl (ht s)

/-- **C107, subclasses and imports.** An instance of a subclass of an accepted class is accepted, and importing further modules does not make an accepted
model unknown (Spark models, which are recognised by the text of their type, apart). -/
theorem C107_subclass {py py' : Imported} {o o' : PyObj} (hpy : ∀ m c cl, py m c = some cl → py' m c = some cl)
    (ho : ∀ cl ∈ o.classes, cl ∈ o'.classes) (h1 : o.dict = true → o'.dict = true) (h2 : o.treeList = true → o'.treeList = true)
    {b : Branch} (hb : chooseBranch py o branchTable = .ok b) (hs : b ≠ .spark) : ∃ b', chooseBranch py' o' branchTable = .ok b' := by
  obtain ⟨pre, t, post, e, hm, _⟩ := ((C107_branch py o).1 b).mp hb
  cases hc : chooseBranch py' o' branchTable with
  | ok b' => exact ⟨b', rfl⟩
  | error e' =>
    have hmem : (t, b) ∈ branchTable := by rw [e]; simp
    have hno := (((C107_branch py' o').2 e').mp hc).2 (t, b) hmem
    refine absurd (PassesTest.mono hpy ho h1 h2 ?_ hm) hno
    rintro s rfl
    have : ∀ q ∈ branchTable, (match q.1 with | .typeHas _ => decide (q.2 = .spark) | _ => true) = true := by decide +kernel
    exact hs (by simpa using this _ hmem)

/-- **C107, which branch.** A model of a class that inherits from scikit-learn's RandomForestClassifier (as imblearn's BalancedRandomForestClassifier does)
is never read by the branch written for imblearn. -/
theorem C107_balanced {py : Imported} {o : PyObj} (h : Names py o "sklearn.ensemble.RandomForestClassifier") :
    chooseBranch py o branchTable ≠ .ok .balanced := by
  intro hb
  obtain ⟨pre, t, post, e, _, hno⟩ := ((C107_branch py o).1 _).mp hb
  have hk : ∀ (l : List (BranchTest × Branch)), (∀ q ∈ l, q.2 ≠ .balanced) → ∀ r, l ++ r = pre ++ (t, .balanced) :: post → ∀ q ∈ l, q ∈ pre := by
    intro l hl r he q hq
    rcases List.append_eq_append_iff.mp he with ⟨a, h1, _⟩ | ⟨c, h1, h2⟩
    · rw [h1]; simp [hq]
    · rw [h1, List.mem_append] at hq
      rcases hq with hq | hq
      · exact hq
      · cases c with
        | nil => cases hq
        | cons z c =>
          simp only [List.cons_append, List.cons.injEq] at h2
          exact absurd (by rw [← h2.1]) (hl z (by rw [h1]; simp))
  have hin := hk (branchTable.take 11) (by decide +kernel) (branchTable.drop 11) (by rw [List.take_append_drop, e])
    (.instOf ["sklearn.ensemble.RandomForestClassifier", "sklearn.ensemble.forest.RandomForestClassifier"], .forestClf) (by simp [branchTable])
  exact hno _ hin ⟨_, List.mem_cons_self, h⟩

/-- **C107, loading.** In every branch that is not one of the silent ones and not that of NGBoost, the object is built exactly if the trees were read, and
has these trees: then the methods answer, if there is a tree. -/
theorem C107_loaded_partial {py : Imported} {o : PyObj} {b : Branch} (hb : chooseBranch py o branchTable = .ok b) (hs : ¬ b.Silent) (hn : b ≠ .ngboost)
    (bm : Bool) (load : Except PyExc (List TreeArr)) :
    (∀ r, newTrees py o bm load = .ok r ↔ ∃ ts, load = .ok ts ∧ r = some ts) ∧
    ∀ ts, load = .ok ts → ts ≠ [] → ∀ {α : Type} (f : List TreeArr → α), ∃ r, newTrees py o bm load = .ok r ∧ withTrees r f = .ok (f ts) := by
  have h : newTrees py o bm load = match load with | .ok ts => .ok (some ts) | .error e => .error e := by
    unfold newTrees
    rw [hb]
    cases b <;> first | rfl | exact absurd rfl hn | exact absurd (by simp [Branch.Silent]) hs
  constructor
  · intro r
    rw [h]
    cases load with
    | error e => simp
    | ok ts => simp [eq_comm]
  · rintro ts rfl hne α f
    refine ⟨some ts, h, ?_⟩
    cases ts with
    | nil => exact absurd rfl hne
    | cons t ts => rfl

/-- **C107, the silent branches.** For LightGBM and GPBoost models and CatBoostClassifier an exception of the loader is dropped and the object is built
without trees; for CatBoostRegressor and CatBoost the trees are never read. Every method then fails. -/
theorem C107_silent {py : Imported} {o : PyObj} {b : Branch} (hb : chooseBranch py o branchTable = .ok b) (hs : b.Silent) (bm : Bool) :
    (∀ e, newTrees py o bm (.error e) = .ok none) ∧
    ((b = .catReg ∨ b = .cat) → ∀ load, newTrees py o bm load = .ok none) ∧
    (¬ (b = .catReg ∨ b = .cat) → ∀ ts, newTrees py o bm (.ok ts) = .ok (some ts)) ∧
    ∀ {α : Type} (f : List TreeArr → α) (r : Option (List TreeArr)), withTrees r f = .error .attribute ↔ r = none ∨ r = some [] := by
  unfold newTrees
  rw [hb]
  refine ⟨fun e => ?_, ?_, fun hne ts => ?_, fun f r => ?_⟩
  · cases b <;> first | rfl | exact absurd hs (by simp [Branch.Silent])
  · rintro (rfl | rfl) load <;> rfl
  · cases b <;> first | rfl | exact absurd (Or.inl rfl) hne | exact absurd (Or.inr rfl) hne | exact absurd hs (by simp [Branch.Silent])
  · rcases r with _ | (_ | ⟨t, ts⟩) <;> simp [withTrees]

/-- What a table does with an object that is an instance of the classes of one kind. -/
theorem firstMet_kind {py : Imported} {o : PyObj} {b b' : Branch} (h : FirstMet py o branchTable b') (hd : o.dict = false) (ht : o.treeList = false)
    (htext : ¬ ∃ u v, o.typeText.toList = u ++ "pyspark.ml".toList ++ v)
    (honly : ∀ q c, (q, c) ∈ libraryClasses → Names py o q → c = b ∨ (c = .cat ∧ (b = .catReg ∨ b = .catClf))) :
    b' = b ∨ (b' = .cat ∧ (b = .catReg ∨ b = .catClf)) := by
  obtain ⟨pre, t, post, e, hp, _⟩ := h
  have hmem : (t, b') ∈ branchTable := by rw [e]; simp
  have hall : ∀ q ∈ branchTable, (match q.1 with
      | .instOf ps => ps.all fun p => libraryClasses.contains (p, q.2) | .typeHas s => decide (s = "pyspark.ml") | _ => true) = true := by
    decide +kernel
  have h0 := hall _ hmem
  cases t with
  | isDict => simp [PassesTest, hd] at hp
  | isTreeList => simp [PassesTest, ht] at hp
  | instOf ps =>
    obtain ⟨p, hps, hn⟩ := hp
    simp only [List.all_eq_true, List.contains_iff_mem] at h0
    exact honly p b' (h0 p hps) hn
  | typeHas s =>
    simp only [decide_eq_true_eq] at h0
    subst h0
    exact absurd hp htext

/-- **C107, the kind.** An instance of a supported class (and of no supported class of another kind; CatBoost's classifiers and regressors are
instances of the base class too) is read as a model of that kind. -/
theorem C107_kind {py : Imported} {o : PyObj} {p : String} {b : Branch} (hp : (p, b) ∈ libraryClasses) (hn : Names py o p) (hd : o.dict = false)
    (ht : o.treeList = false) (htext : ¬ ∃ u v, o.typeText.toList = u ++ "pyspark.ml".toList ++ v)
    (honly : ∀ q c, (q, c) ∈ libraryClasses → Names py o q → c = b ∨ (c = .cat ∧ (b = .catReg ∨ b = .catClf))) :
    chooseBranch py o branchTable = .ok b := by
  have hin : ∀ r ∈ libraryClasses, branchTable.any (fun q => match q.1 with | .instOf ps => ps.contains r.1 && decide (q.2 = r.2) | _ => false) = true := by
    decide +kernel
  obtain ⟨⟨t, b₁⟩, hq, hqt⟩ := List.any_eq_true.1 (hin _ hp)
  cases t with
  | isDict => simp at hqt
  | isTreeList => simp at hqt
  | typeHas s => simp at hqt
  | instOf ps =>
    simp only [Bool.and_eq_true, List.contains_iff_mem, decide_eq_true_eq] at hqt
    obtain ⟨hps, rfl⟩ := hqt
    have hpass : PassesTest py o (.instOf ps) := ⟨p, hps, hn⟩
    cases hc : chooseBranch py o branchTable with
    | error e => exact absurd hpass ((((C107_branch py o).2 e).1 hc).2 _ hq)
    | ok b' =>
      have hf := ((C107_branch py o).1 b').1 hc
      rcases firstMet_kind hf hd ht htext honly with rfl | ⟨rfl, hb⟩
      · rfl
      · exfalso
        obtain ⟨pre, t, post, e, _, hno⟩ := hf
        have hpos : ∀ (b : Branch) (ps : List String), (b = .catReg ∨ b = .catClf) → (BranchTest.instOf ps, b) ∈ branchTable →
            (BranchTest.instOf ps, b) ∈ pre := by
          intro b ps hb hmem
          have hsplit : ∃ l r, branchTable = l ++ r ∧ (∀ q ∈ l, q.2 ≠ .cat) ∧ (∀ q ∈ r, q.2 ≠ .catReg ∧ q.2 ≠ .catClf) :=
            ⟨branchTable.take 29, branchTable.drop 29, (List.take_append_drop _ _).symm, by decide +kernel, by decide +kernel⟩
          obtain ⟨l, r, e', hl, hr⟩ := hsplit
          rw [e'] at hmem e
          rcases List.mem_append.1 hmem with hmem | hmem
          · rcases List.append_eq_append_iff.1 e with ⟨a, h1, _⟩ | ⟨c, h1, h2⟩
            · rw [h1]; simp [hmem]
            · rw [h1, List.mem_append] at hmem
              rcases hmem with hmem | hmem
              · exact hmem
              · cases c with
                | nil => cases hmem
                | cons z c =>
                  simp only [List.cons_append, List.cons.injEq] at h2
                  exact absurd (by rw [← h2.1]) (hl z (by rw [h1]; simp))
          · rcases hb with rfl | rfl
            · exact absurd rfl (hr _ hmem).1
            · exact absurd rfl (hr _ hmem).2
        exact hno _ (hpos _ _ hb hq) hpass

/-- **C107, outputs.** The number of stacked models that is used: XGBoost and LightGBM models with several classes have one per class, one otherwise. -/
theorem C107_stacked (K : Nat) (b : Branch) :
    (b = .xgbBooster ∨ b = .xgbClf ∨ b = .xgbReg ∨ b = .xgbRank → stackedModels K b = max 1 K) ∧
    (b = .lgbClf → (2 < K → stackedModels K b = K) ∧ (K ≤ 2 → stackedModels K b = 1)) ∧
    (b = .histClf → stackedModels K b = K) ∧
    (stackedModels K b ≠ 1 → b ∈ [Branch.xgbBooster, .xgbClf, .xgbReg, .xgbRank, .lgbClf, .histClf]) := by
  refine ⟨?_, ?_, ?_, fun h => ?_⟩
  · rintro (rfl | rfl | rfl | rfl) <;>
    · simp only [stackedModels]
      split <;> omega
  · rintro rfl
    exact ⟨fun h => by simp [stackedModels, h], fun h => by simp [stackedModels, not_lt.2 h]⟩
  · rintro rfl; rfl
  · cases b <;> first | exact absurd rfl h | simp

/-- **C107, NGBoost.** No NGBoost model is ever accepted, although there is a branch for it. -/
theorem C107_ngboost {py : Imported} {o : PyObj} (hb : chooseBranch py o branchTable = .ok .ngboost) (bm : Bool) (load : Except PyExc (List TreeArr)) :
    newTrees py o bm load = .error .unbound ∨ newTrees py o bm load = .error .assertion := by
  unfold newTrees
  rw [hb]
  cases bm
  · exact Or.inr rfl
  · exact Or.inl rfl

/-- **C107, several classes in a LightGBM Booster.** A Booster with one tree per class and round has one output only, and it is the sum of the scores of all
classes; read as an LGBMClassifier, the same trees have one output per class (C63). -/
theorem C107_booster {K : Nat} {rounds : List (List TreeArr)} (hr : IsRounds K rounds) {d : Nat}
    (h : ∀ r ∈ rounds, ∀ t ∈ r, WellFormed t d) (base : Nat → ℚ) (x : Obs) (leaf : TreeArr → Nat)
    (hleaf : ∀ r ∈ rounds, ∀ t ∈ r, EndsIn t x (leaf t)) :
    stackTrees (stackedModels K .lgbBooster) rounds.flatten = some rounds.flatten ∧
    ensemblePredict rounds.flatten none none base x 0 =
      some (base 0 + ∑ k ∈ Finset.range K, (rounds.map fun r => (r.map fun t => t.value (leaf t) 0).getD k 0).sum) ∧
    (2 < K → stackedModels K .lgbClf = K) := by
  refine ⟨by simp [stackTrees, stackedModels], ?_, fun hK => by simp [stackedModels, hK]⟩
  have hwf : ∀ t ∈ rounds.flatten, WellFormed t d := by
    intro t ht
    obtain ⟨r, h1, h2⟩ := List.mem_flatten.mp ht
    exact h r h1 t h2
  have := (C03_predict_is_sum_of_leaf_values hwf none none base x 0).2 leaf (by
    intro t ht
    obtain ⟨r, h1, h2⟩ := List.mem_flatten.mp ht
    exact hleaf r h1 t h2)
  rw [this]
  have h2 : effLimit rounds.flatten.length none none = rounds.flatten.length := by rw [C03_tree_limit]; rfl
  rw [h2, List.take_length]
  congr 2
  have hone : ∀ (l : List ℚ), ∑ k ∈ Finset.range l.length, l.getD k 0 = l.sum := by
    intro l
    induction l with
    | nil => rfl
    | cons a l ih =>
      rw [List.length_cons, Finset.sum_range_succ', List.sum_cons, ← ih, add_comm]
      simp
  clear this h2 hwf hleaf h
  induction rounds with
  | nil => simp
  | cons r rounds ih =>
    rw [List.flatten_cons, List.map_append, List.sum_append, ih fun q hq => hr q (List.mem_cons_of_mem _ hq)]
    simp only [List.map_cons, List.sum_cons]
    rw [Finset.sum_add_distrib]
    congr 1
    rw [← hone, List.length_map, hr r List.mem_cons_self]

/-- **C107, `ACXplainer` trees.** `BaseAgnosTree` accepts the two forests of skranger and nothing else. -/
theorem C107_agnostic (py : Imported) (o : PyObj) :
    (agnosBranch py o = .ok true ↔ Names py o "skranger.ensemble.classifier.RangerForestClassifier") ∧
    (agnosBranch py o = .ok false ↔ ¬ Names py o "skranger.ensemble.classifier.RangerForestClassifier" ∧
      Names py o "skranger.ensemble.regressor.RangerForestRegressor") ∧
    ((agnosBranch py o = .error .unsupported) ↔ ¬ Names py o "skranger.ensemble.classifier.RangerForestClassifier" ∧
      ¬ Names py o "skranger.ensemble.regressor.RangerForestRegressor") := by
  obtain ⟨h1, h2⟩ := (C107_isinstance py o).1 ["skranger.ensemble.classifier.RangerForestClassifier"] (by decide +kernel)
  obtain ⟨h3, h4⟩ := (C107_isinstance py o).1 ["skranger.ensemble.regressor.RangerForestRegressor"] (by decide +kernel)
  simp only [List.mem_singleton, exists_eq_left] at h1 h2 h3 h4
  unfold agnosBranch
  by_cases a : Names py o "skranger.ensemble.classifier.RangerForestClassifier"
  · rw [h1.mpr a]; simp [a]
  · rw [h2.mpr a]
    by_cases b : Names py o "skranger.ensemble.regressor.RangerForestRegressor"
    · rw [h3.mpr b]; simp [a, b]
    · rw [h4.mpr b]; simp [a, b]

/-- The full claim of C107: an object that the constructor returns has trees. -/
def C107_claim : Prop :=
  ∀ (py : Imported) (o : PyObj) (bm : Bool) (load : Except PyExc (List TreeArr)) (r), newTrees py o bm load = .ok r → ∃ ts, r = some ts

/-- An interpreter in which some libraries are imported; class 1 is CatBoostRegressor, 2 LGBMRegressor, 3 RandomForestClassifier, 4 imblearn's
BalancedRandomForestClassifier, 5 NGBRegressor. -/
def exImported : Imported := fun m c =>
  if m = "catboost.core".toList ∧ c = "CatBoostRegressor".toList then some 1
  else if m = "lightgbm.sklearn".toList ∧ c = "LGBMRegressor".toList then some 2
  else if m = "sklearn.ensemble".toList ∧ c = "RandomForestClassifier".toList then some 3
  else if m = "imblearn.ensemble._forest".toList ∧ c = "BalancedRandomForestClassifier".toList then some 4
  else if m = "ngboost.api".toList ∧ c = "NGBRegressor".toList then some 5
  else none

/-- An instance of the given classes. -/
def exObj (classes : List Nat) : PyObj := ⟨classes, "<class 'model'>", false, false⟩

/-- **C107 is false of the code.** A CatBoostRegressor is accepted and has no trees, whatever its trees are; a LightGBM model whose trees cannot be read is
accepted and has no trees. -/
theorem C107_false : ¬ C107_claim ∧
    (∀ load, newTrees exImported (exObj [1]) true load = .ok none) ∧ (∀ e, newTrees exImported (exObj [2]) true (.error e) = .ok none) := by
  have h1 : chooseBranch exImported (exObj [1]) branchTable = .ok .catReg := by decide +kernel
  have h2 : chooseBranch exImported (exObj [2]) branchTable = .ok .lgbReg := by decide +kernel
  have h3 := (C107_silent h1 (by simp [Branch.Silent]) true).2.1 (Or.inl rfl)
  refine ⟨fun h => ?_, h3, (C107_silent h2 (by simp [Branch.Silent]) true).1⟩
  obtain ⟨ts, hts⟩ := h _ _ _ _ _ (h3 (.ok []))
  cases hts

/-- The branches of some models: the first four are accepted, an unknown class is refused; imblearn's forest, which inherits from that of scikit-learn,
goes to the branch of scikit-learn; a forest whose library module is not imported under a listed path is refused. -/
example : chooseBranch exImported (exObj [3]) branchTable = .ok .forestClf ∧ chooseBranch exImported (exObj [4, 3]) branchTable = .ok .forestClf ∧
    chooseBranch exImported (exObj [4]) branchTable = .ok .balanced ∧ chooseBranch exImported (exObj [5]) branchTable = .ok .ngboost ∧
    chooseBranch exImported (exObj [9]) branchTable = .error .unsupported ∧ chooseBranch (fun _ _ => none) (exObj [3]) branchTable = .error .unsupported ∧
    chooseBranch (fun _ _ => none) ⟨[], "<class 'pyspark.ml.x'>", false, false⟩ branchTable = .ok .spark := by decide +kernel

/-- A CatBoost classifier, which is also an instance of the base class, meets the hypotheses of `C107_kind`. -/
example : ("catboost.core.CatBoostClassifier", Branch.catClf) ∈ libraryClasses ∧
    (∀ q c, (q, c) ∈ libraryClasses → Names (fun m c => if m = "catboost.core".toList then
        (if c = "CatBoostClassifier".toList then some 1 else if c = "CatBoost".toList then some 2 else none) else none) (exObj [1, 2]) q →
      c = Branch.catClf ∨ (c = .cat ∧ (Branch.catClf = .catReg ∨ Branch.catClf = .catClf))) ∧
    chooseBranch (fun m c => if m = "catboost.core".toList then
        (if c = "CatBoostClassifier".toList then some 1 else if c = "CatBoost".toList then some 2 else none) else none) (exObj [1, 2]) branchTable =
      .ok .catClf := by
  refine ⟨by decide +kernel, ?_, by decide +kernel⟩
  have h : ∀ r ∈ libraryClasses, r.2 = .catClf ∨ r.2 = .cat ∨
      safeIsInstance (fun m c => if m = "catboost.core".toList then
        (if c = "CatBoostClassifier".toList then some 1 else if c = "CatBoost".toList then some 2 else none) else none) (exObj [1, 2]) [r.1] = .ok false := by
    decide +kernel
  have hdot : ∀ r ∈ libraryClasses, '.' ∈ r.1.toList := by decide +kernel
  intro q c hq hn
  rcases h _ hq with h | h | h
  · exact Or.inl h
  · exact Or.inr ⟨h, Or.inr rfl⟩
  · have := ((C107_isinstance _ (exObj [1, 2])).1 [q] (by simpa using hdot _ hq)).2.1 h
    exact absurd ⟨q, by simp, hn⟩ this

end Acv
