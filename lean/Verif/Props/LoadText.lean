import Verif.Lemmas.LoadText

/-!
# C100: text dumps of XGBoost
-/

namespace Acv

/-- A name of a column that XGBoost can write between brackets and that shares no character with the keys of a dump, except those listed. -/
def SafeName (s : List Char) : Prop := ∀ c ∈ s, c ∉ [':', '\n', ' ', '<', '=', 'l', 'y', 'n', 'm', 'c']

/-- The text of a leaf after its number. -/
def leafText (v c : List Char) : List Char := ['l', 'e', 'a', 'f', '='] ++ v ++ [',', 'c', 'o', 'v', 'e', 'r', '='] ++ c

/-- The text of a split after its number. -/
def splitText (name thr : List Char) (yes no mis : Nat) (g c : List Char) : List Char :=
  ['['] ++ name ++ ['<'] ++ thr ++ [']', ' ', 'y', 'e', 's', '='] ++ num yes ++
      [',', 'n', 'o', '='] ++ num no ++ [',', 'm', 'i', 's', 's', 'i', 'n', 'g', '='] ++ num mis ++ [',', 'g', 'a', 'i', 'n', '='] ++ g ++
      [',', 'c', 'o', 'v', 'e', 'r', '='] ++ c

theorem leafText_not {v c : List Char} (hv : IsNumber v) (hc : IsNumber c) {x : Char} (h1 : x ∉ ['0', '1', '2', '3', '4', '5', '6', '7', '8', '9', '.', 'e', '+', '-'])
    (h2 : x ∉ ['l', 'e', 'a', 'f', '=', ',', 'c', 'o', 'v', 'e', 'r', '=']) : x ∉ leafText v c := by
  have := hv.not h1
  have := hc.not h1
  simp only [leafText, List.mem_append, List.mem_cons, List.not_mem_nil, or_false, not_or] at h2 ⊢
  tauto

theorem splitText_not {name thr g c : List Char} {yes no mis : Nat} (hn : SafeName name) (ht : IsNumber thr) (hg : IsNumber g) (hc : IsNumber c) {x : Char}
    (h1 : x ∉ ['0', '1', '2', '3', '4', '5', '6', '7', '8', '9', '.', 'e', '+', '-']) (h3 : x ∈ [':', '\n', ' ', '<', '=', 'l', 'y', 'n', 'm', 'c'])
    (h4 : x.isDigit = false)
    (h2 : x ∉ ['[', '<', ']', ' ', 'y', 'e', 's', '=', ',', 'n', 'o', 'm', 'i', 'g', 'a', 'c', 'v', 'r']) : x ∉ splitText name thr yes no mis g c := by
  have := ht.not h1
  have := hc.not h1
  have := hg.not h1
  have : x ∉ name := fun h => hn x h h3
  have := num_not (n := yes) h4
  have := num_not (n := no) h4
  have := num_not (n := mis) h4
  simp only [splitText, List.mem_append, List.mem_cons, List.not_mem_nil, or_false, not_or] at h2 ⊢
  tauto

/-- A leaf is read as written. -/
theorem textNode_leaf (fl : List Char → Option ℚ) (t : TreeArr) (vars : Option (Nat × ℚ)) (i : Nat) {v c : List Char} {qv qc : ℚ} (hv : IsNumber v)
    (hc : IsNumber c) (fv : fl v = some qv) (fc : fl c = some qc) :
    textNode fl (t, vars) (i, leafText v c) = some (t.putXgbLeaf i qv qc, vars) := by
  have e1 : pyIn ['l', 'e', 'a', 'f'] (leafText v c) = true := by simp [leafText, pyIn, List.isPrefixOf]
  obtain ⟨p, e2, e3⟩ := field_comma (c := 'l') (r := ['e', 'a', 'f', '=']) (a := []) (d := v) (['c', 'o', 'v', 'e', 'r', '='] ++ c) (by simp)
    (hv.not (by decide)) (by decide) (hv.not (by decide))
  have e4 := (field_end (c := 'c') (r := ['o', 'v', 'e', 'r', '=']) (a := ['l', 'e', 'a', 'f', '='] ++ v ++ [',']) (d := c)
    (by simp [hv.not (c := 'c') (by decide)]) (hc.not (by decide)) (hc.not (by decide))).1
  have h2 : leafText v c = [] ++ ['l', 'e', 'a', 'f', '='] ++ (v ++ ',' :: (['c', 'o', 'v', 'e', 'r', '='] ++ c)) := by simp [leafText]
  have h4 : leafText v c = (['l', 'e', 'a', 'f', '='] ++ v ++ [',']) ++ ['c', 'o', 'v', 'e', 'r', '='] ++ c := by simp [leafText]
  rw [← h2] at e2
  rw [← h4] at e4
  unfold textNode floatField
  simp only [e1, if_true, e2, e3, e4, fv, fc, Option.bind_eq_bind, Option.bind_some]

/-- A split is read as written, its column from the characters after the first of its name. -/
theorem textNode_split (fl : List Char → Option ℚ) (t : TreeArr) (vars : Option (Nat × ℚ)) (i : Nat) {name thr g c : List Char} {f yes no mis : Nat}
    {qt qc : ℚ} (hn : SafeName name) (hnf : pyInt (name.drop 1) = some f) (hne : name ≠ []) (ht : IsNumber thr) (hg : IsNumber g) (hc : IsNumber c)
    (ft : fl thr = some qt) (fc : fl c = some qc) :
    textNode fl (t, vars) (i, splitText name thr yes no mis g c) = some (t.putXgbSplit i f qt yes no mis qc, some (f, qt)) := by
  have dig : ∀ {n : Nat} {x : Char}, x.isDigit = false → x ∉ num n := fun h => num_not h
  have nm : ∀ {x : Char}, x ∈ [':', '\n', ' ', '<', '=', 'l', 'y', 'n', 'm', 'c'] → x ∉ name := fun h hm => hn _ hm h
  have e1 : pyIn ['l', 'e', 'a', 'f'] (splitText name thr yes no mis g c) = false :=
    pyIn_none (splitText_not hn ht hg hc (by decide) (by decide) (by decide) (by decide))
  obtain ⟨p1, y1, y2⟩ := field_comma (c := 'y') (r := ['e', 's', '=']) (a := ['['] ++ name ++ ['<'] ++ thr ++ [']', ' ']) (d := num yes)
    (['n', 'o', '='] ++ num no ++ [',', 'm', 'i', 's', 's', 'i', 'n', 'g', '='] ++ num mis ++ [',', 'g', 'a', 'i', 'n', '='] ++ g ++
      [',', 'c', 'o', 'v', 'e', 'r', '='] ++ c)
    (by simp [nm (x := 'y') (by decide), ht.not (c := 'y') (by decide)]) (dig (by decide)) (by decide) (dig (by decide))
  obtain ⟨p2, n1, n2⟩ := field_comma (c := 'n') (r := ['o', '=']) (a := ['['] ++ name ++ ['<'] ++ thr ++ [']', ' ', 'y', 'e', 's', '='] ++ num yes ++ [','])
    (d := num no)
    (['m', 'i', 's', 's', 'i', 'n', 'g', '='] ++ num mis ++ [',', 'g', 'a', 'i', 'n', '='] ++ g ++
      [',', 'c', 'o', 'v', 'e', 'r', '='] ++ c)
    (by simp [nm (x := 'n') (by decide), ht.not (c := 'n') (by decide), dig (x := 'n') (n := yes) (by decide)]) (dig (by decide)) (by decide)
    (dig (by decide))
  obtain ⟨p3, m1, m2⟩ := field_comma (c := 'm') (r := ['i', 's', 's', 'i', 'n', 'g', '='])
    (a := ['['] ++ name ++ ['<'] ++ thr ++ [']', ' ', 'y', 'e', 's', '='] ++ num yes ++ [',', 'n', 'o', '='] ++ num no ++ [','])
    (d := num mis) (['g', 'a', 'i', 'n', '='] ++ g ++ [',', 'c', 'o', 'v', 'e', 'r', '='] ++ c)
    (by simp [nm (x := 'm') (by decide), ht.not (c := 'm') (by decide), dig (x := 'm') (n := yes) (by decide), dig (x := 'm') (n := no) (by decide)])
    (dig (by decide)) (by decide) (dig (by decide))
  obtain ⟨c1, c2⟩ := field_end (c := 'c') (r := ['o', 'v', 'e', 'r', '='])
    (a := ['['] ++ name ++ ['<'] ++ thr ++ [']', ' ', 'y', 'e', 's', '='] ++ num yes ++ [',', 'n', 'o', '='] ++ num no ++
      [',', 'm', 'i', 's', 's', 'i', 'n', 'g', '='] ++ num mis ++ [',', 'g', 'a', 'i', 'n', '='] ++ g ++ [',']) (d := c)
    (by simp [nm (x := 'c') (by decide), ht.not (c := 'c') (by decide), hg.not (c := 'c') (by decide), dig (x := 'c') (n := yes) (by decide),
      dig (x := 'c') (n := no) (by decide), dig (x := 'c') (n := mis) (by decide)]) (hc.not (by decide)) (hc.not (by decide))
  have hy : splitText name thr yes no mis g c = _ ++ _ ++ _ := (by simp [splitText] : splitText name thr yes no mis g c =
    (['['] ++ name ++ ['<'] ++ thr ++ [']', ' ']) ++ ['y', 'e', 's', '='] ++ (num yes ++ ',' :: (['n', 'o', '='] ++ num no ++
      [',', 'm', 'i', 's', 's', 'i', 'n', 'g', '='] ++ num mis ++ [',', 'g', 'a', 'i', 'n', '='] ++ g ++ [',', 'c', 'o', 'v', 'e', 'r', '='] ++ c)))
  have hno : splitText name thr yes no mis g c = _ ++ _ ++ _ := (by simp [splitText] : splitText name thr yes no mis g c =
    (['['] ++ name ++ ['<'] ++ thr ++ [']', ' ', 'y', 'e', 's', '='] ++ num yes ++ [',']) ++ ['n', 'o', '='] ++ (num no ++ ',' ::
      (['m', 'i', 's', 's', 'i', 'n', 'g', '='] ++ num mis ++ [',', 'g', 'a', 'i', 'n', '='] ++ g ++ [',', 'c', 'o', 'v', 'e', 'r', '='] ++ c)))
  have hm : splitText name thr yes no mis g c = _ ++ _ ++ _ := (by simp [splitText] : splitText name thr yes no mis g c =
    (['['] ++ name ++ ['<'] ++ thr ++ [']', ' ', 'y', 'e', 's', '='] ++ num yes ++ [',', 'n', 'o', '='] ++ num no ++ [',']) ++
      ['m', 'i', 's', 's', 'i', 'n', 'g', '='] ++ (num mis ++ ',' :: (['g', 'a', 'i', 'n', '='] ++ g ++ [',', 'c', 'o', 'v', 'e', 'r', '='] ++ c)))
  have hcv : splitText name thr yes no mis g c = _ ++ _ ++ _ := (by simp [splitText] : splitText name thr yes no mis g c =
    (['['] ++ name ++ ['<'] ++ thr ++ [']', ' ', 'y', 'e', 's', '='] ++ num yes ++ [',', 'n', 'o', '='] ++ num no ++
      [',', 'm', 'i', 's', 's', 'i', 'n', 'g', '='] ++ num mis ++ [',', 'g', 'a', 'i', 'n', '='] ++ g ++ [',']) ++ ['c', 'o', 'v', 'e', 'r', '='] ++ c)
  rw [← hy] at y1
  rw [← hno] at n1
  rw [← hm] at m1
  rw [← hcv] at c1
  have hft : (pySplit [' '] (splitText name thr yes no mis g c))[0]? = some (['['] ++ name ++ ['<'] ++ thr ++ [']']) := by
    have : splitText name thr yes no mis g c = (['['] ++ name ++ ['<'] ++ thr ++ [']']) ++ [' '] ++ (['y', 'e', 's', '='] ++ num yes ++
      [',', 'n', 'o', '='] ++ num no ++ [',', 'm', 'i', 's', 's', 'i', 'n', 'g', '='] ++ num mis ++ [',', 'g', 'a', 'i', 'n', '='] ++ g ++
      [',', 'c', 'o', 'v', 'e', 'r', '='] ++ c) := by simp [splitText]
    rw [this, pySplit_sep _ (by simp [nm (x := ' ') (by decide), ht.not (c := ' ') (by decide)])]
    rfl
  have hlt : pySplit ['<'] (['['] ++ name ++ ['<'] ++ thr ++ [']']) = [['['] ++ name, thr ++ [']']] := by
    have : ['['] ++ name ++ ['<'] ++ thr ++ [']'] = (['['] ++ name) ++ ['<'] ++ (thr ++ [']']) := by simp
    rw [this, pySplit_sep _ (by simp [nm (x := '<') (by decide)]), pySplit_none (by simp [ht.not (c := '<') (by decide)])]
  have i1 : pyIn ['<'] (['['] ++ name ++ ['<'] ++ thr ++ [']']) = true := pyIn_one (by simp)
  have i2 : pyIn ['='] (['['] ++ name ++ ['<'] ++ thr ++ [']']) = false :=
    pyIn_none (by simp [nm (x := '=') (by decide), ht.not (c := '=') (by decide)])
  have hdrop : (['['] ++ name).drop 2 = name.drop 1 := by simp
  have hcond : condVars fl (splitText name thr yes no mis g c) vars = some (some (f, qt)) := by
    unfold condVars condAt
    simp only [hft, hlt, i1, i2, if_true, Option.bind_eq_bind, Option.bind_some, List.getElem?_cons_zero, List.getElem?_cons_succ, hdrop, hnf,
      List.dropLast_concat, ft, Option.map_some]
    rw [if_neg (by decide)]
  unfold textNode intField floatField
  simp only [e1, y1, y2, n1, n2, m1, m2, c1, c2, hcond, pyInt_num, fc, Option.bind_eq_bind, Option.bind_some]
  rw [if_neg (by decide)]

/-- The numbers and the texts of the nodes, in preorder. -/
def XgbText.entries : XgbText → List (Nat × List Char)
  | .leaf i v c => [(i, leafText v c)]
  | .split i name thr yes no mis g c a b => (i, splitText name thr yes no mis g c) :: (a.entries ++ b.entries)

/-- The dump with its columns renumbered. -/
def XgbDump.recolumn (col : Nat → Nat) : XgbDump → XgbDump
  | .leaf i v c => .leaf i v c
  | .split i f thr yes no mis c a b => .split i (col f) thr yes no mis c (a.recolumn col) (b.recolumn col)

/-- The names are safe and are read as column `col f`. -/
structure ReadAs (name : Nat → List Char) (col : Nat → Nat) : Prop where
  safe : ∀ f, SafeName (name f)
  ne : ∀ f, name f ≠ []
  read : ∀ f, pyInt ((name f).drop 1) = some (col f)

theorem XgbText.entries_ids {fl : List Char → Option ℚ} {name : Nat → List Char} : ∀ {X : XgbText} {T : XgbDump}, X.Writes fl name T →
    X.entries.map (·.1) = T.ids
  | .leaf .., .leaf .., h => by simp [XgbText.entries, XgbDump.ids, h.1]
  | .split .., .split .., h => by
    obtain ⟨rfl, -, -, -, -, -, -, -, -, -, ha, hb⟩ := h
    simp [XgbText.entries, XgbDump.ids, XgbText.entries_ids ha, XgbText.entries_ids hb]
  | .leaf .., .split .., h => h.elim
  | .split .., .leaf .., h => h.elim

/-- The loop over the nodes fills the arrays as the JSON loader does. -/
theorem XgbText.fold {fl : List Char → Option ℚ} {name : Nat → List Char} {col : Nat → Nat} (hr : ReadAs name col) :
    ∀ {X : XgbText} {T : XgbDump} (t : TreeArr) (vars : Option (Nat × ℚ)), X.Writes fl name T →
      ∃ vars', X.entries.foldlM (textNode fl) (t, vars) = some (xgbExtract 1 (T.recolumn col) t, vars')
  | .leaf .., .leaf .., t, vars, h => by
    obtain ⟨rfl, hv, fv, hc, fc⟩ := h
    refine ⟨vars, ?_⟩
    simp [XgbText.entries, textNode_leaf fl t vars _ hv hc fv fc, XgbDump.recolumn, xgbExtract]
  | .split .., .split .., t, vars, h => by
    obtain ⟨rfl, rfl, ht, ft, rfl, rfl, rfl, hg, hc, fc, ha, hb⟩ := h
    simp only [XgbText.entries, List.foldlM_cons, List.foldlM_append,
      textNode_split fl t vars _ (hr.safe _) (hr.read _) (hr.ne _) ht hg hc ft fc, Option.bind_eq_bind, Option.bind_some]
    obtain ⟨v1, e1⟩ := XgbText.fold hr (t.putXgbSplit _ _ _ _ _ _ _) (some (_, _)) ha
    rw [e1]
    simp only [Option.bind_some]
    obtain ⟨v2, e2⟩ := XgbText.fold hr _ v1 hb
    exact ⟨v2, e2⟩
  | .leaf .., .split .., _, _, h => h.elim
  | .split .., .leaf .., _, _, h => h.elim

theorem XgbText.lines_entries (X : XgbText) : ∀ d, ∃ deps : List Nat, deps.length = X.entries.length ∧
    X.lines d = List.zipWith (fun k (p : Nat × List Char) => List.replicate k '\t' ++ (num p.1 ++ [':'] ++ p.2)) deps X.entries := by
  induction X with
  | leaf i v c => exact fun d => ⟨[d], rfl, by simp [XgbText.lines, XgbText.entries, leafText]⟩
  | split i name thr yes no mis g c a b iha ihb =>
    intro d
    obtain ⟨da, la, ea⟩ := iha (d + 1)
    obtain ⟨db, lb, eb⟩ := ihb (d + 1)
    refine ⟨d :: (da ++ db), by simp [XgbText.entries, la, lb], ?_⟩
    simp only [XgbText.lines, XgbText.entries, List.zipWith_cons_cons, ea, eb]
    rw [List.zipWith_append la]
    simp [splitText]

theorem XgbText.entries_safe {fl : List Char → Option ℚ} {name : Nat → List Char} (hs : ∀ f, SafeName (name f)) :
    ∀ {X : XgbText} {T : XgbDump}, X.Writes fl name T → ∀ p ∈ X.entries, ':' ∉ p.2 ∧ '\n' ∉ p.2
  | .leaf .., .leaf .., h, p, hp => by
    obtain ⟨rfl, hv, fv, hc, fc⟩ := h
    simp only [XgbText.entries, List.mem_singleton] at hp
    subst hp
    exact ⟨leafText_not hv hc (by decide) (by decide), leafText_not hv hc (by decide) (by decide)⟩
  | .split .., .split .., h, p, hp => by
    obtain ⟨rfl, rfl, ht, ft, rfl, rfl, rfl, hg, hc, fc, ha, hb⟩ := h
    simp only [XgbText.entries, List.mem_cons, List.mem_append] at hp
    rcases hp with rfl | hp | hp
    · exact ⟨splitText_not (hs _) ht hg hc (by decide) (by decide) (by decide) (by decide),
        splitText_not (hs _) ht hg hc (by decide) (by decide) (by decide) (by decide)⟩
    · exact XgbText.entries_safe hs ha p hp
    · exact XgbText.entries_safe hs hb p hp
  | .leaf .., .split .., h, _, _ => h.elim
  | .split .., .leaf .., h, _, _ => h.elim

theorem dict_fold : ∀ (es : List (Nat × List Char)) (d : List (Nat × List Char)), (∀ p ∈ es, ':' ∉ p.2) → ((d ++ es).map (·.1)).Nodup →
    (es.map fun p => num p.1 ++ [':'] ++ p.2).foldlM dictLine d = some (d ++ es)
  | [], d, _, _ => by simp
  | p :: es, d, h, hnd => by
    have hf : p.1 ∉ d.map (·.1) := by
      intro hm
      rw [List.map_append, List.nodup_append] at hnd
      exact hnd.2.2 _ hm p.1 (by simp) rfl
    rw [List.map_cons, List.foldlM_cons, dictLine_eq d p.1 (h p (by simp)), dictPut_fresh hf]
    simp only [Option.bind_eq_bind, Option.bind_some]
    rw [dict_fold es _ (fun q hq => h q (by simp [hq])) (by simpa using hnd)]
    simp

theorem XgbText.textNodes_eq {fl : List Char → Option ℚ} {name : Nat → List Char} (hs : ∀ f, SafeName (name f)) {X : XgbText} {T : XgbDump}
    (h : X.Writes fl name T) (hnd : T.ids.Nodup) : textNodes X.text = some X.entries := by
  obtain ⟨deps, hl, he⟩ := X.lines_entries 0
  have hsafe := XgbText.entries_safe hs h
  have hcl : (X.lines 0).map lstrip = X.entries.map fun p => num p.1 ++ [':'] ++ p.2 := by
    rw [he]
    clear he hsafe
    generalize X.entries = es at hl
    induction es generalizing deps with
    | nil => simp
    | cons p es ih =>
      cases deps with
      | nil => simp at hl
      | cons k deps =>
        simp only [List.zipWith_cons_cons, List.map_cons, ih deps (by simpa using hl)]
        rw [lstrip_tabs, List.append_assoc, lstrip_num]
  have hnl : ∀ x ∈ X.lines 0, '\n' ∉ x := by
    rw [he]
    clear he hcl
    generalize X.entries = es at hl hsafe
    induction es generalizing deps with
    | nil => simp
    | cons p es ih =>
      cases deps with
      | nil => simp at hl
      | cons k deps =>
        intro x hx
        simp only [List.zipWith_cons_cons, List.mem_cons] at hx
        rcases hx with rfl | hx
        · have := (hsafe p (by simp)).2
          have h2 := num_not (n := p.1) (c := '\n') (by decide)
          simp [this, h2, List.mem_replicate]
        · exact ih deps (by simpa using hl) (fun q hq => hsafe q (by simp [hq])) x hx
  have hne : ∃ l ls, X.lines 0 = l :: ls := by cases X <;> exact ⟨_, _, rfl⟩
  obtain ⟨l, ls, e⟩ := hne
  unfold textNodes XgbText.text
  rw [e, split_lines l ls (e ▸ hnl), ← e, hcl, dict_fold _ _ (fun p hp => (hsafe p hp).1) (by simpa [XgbText.entries_ids h] using hnd)]
  simp

theorem foldl_max_ids : ∀ (T : XgbDump) (a : Nat), T.ids.foldl max a = max a T.maxId
  | .leaf .., a => rfl
  | .split i f thr yes no mis c l r, a => by
    simp only [XgbDump.ids, List.foldl_cons, List.foldl_append, foldl_max_ids l, foldl_max_ids r, XgbDump.maxId]
    omega

/-- The loader on a written dump. -/
theorem xgbText_eq {fl : List Char → Option ℚ} {name : Nat → List Char} {col : Nat → Nat} (hr : ReadAs name col) (s : ℚ) {X : XgbText} {T : XgbDump}
    (h : X.Writes fl name T) (hnd : T.ids.Nodup) : xgbText fl s X.text =
      some { xgbExtract 1 (T.recolumn col) (textInit (T.maxId + 1)) with
        value := fun i k => (xgbExtract 1 (T.recolumn col) (textInit (T.maxId + 1))).value i k * s } := by
  unfold xgbText
  rw [XgbText.textNodes_eq hr.safe h hnd]
  simp only [Option.bind_eq_bind, Option.bind_some, XgbText.entries_ids h, foldl_max_ids, Nat.zero_max]
  obtain ⟨vars, e⟩ := XgbText.fold hr (textInit (T.maxId + 1)) none h
  rw [e]
  rfl

/-! ### Renumbered columns -/

theorem XgbDump.recolumn_id (col : Nat → Nat) (T : XgbDump) : (T.recolumn col).id = T.id := by cases T <;> rfl

theorem XgbDump.recolumn_ids (col : Nat → Nat) : ∀ T : XgbDump, (T.recolumn col).ids = T.ids
  | .leaf .. => rfl
  | .split _ _ _ _ _ _ _ a b => by simp [XgbDump.recolumn, XgbDump.ids, a.recolumn_ids col, b.recolumn_ids col]

theorem XgbDump.recolumn_linked {col : Nat → Nat} : ∀ {T : XgbDump}, T.Linked → (T.recolumn col).Linked
  | .leaf .., _ => trivial
  | .split .., h => by
    obtain ⟨h1, h2, ha, hb⟩ := h
    exact ⟨by simpa [XgbDump.recolumn_id] using h1, h2, XgbDump.recolumn_linked ha, XgbDump.recolumn_linked hb⟩

theorem XgbDump.recolumn_self : ∀ T : XgbDump, T.recolumn (fun f => f) = T
  | .leaf .. => rfl
  | .split _ _ _ _ _ _ _ a b => by simp [XgbDump.recolumn, a.recolumn_self, b.recolumn_self]

theorem XgbDump.held_scale {s : ℚ} {t : TreeArr} : ∀ {T : XgbDump}, T.Held 1 t → T.Held s { t with value := fun i k => t.value i k * s }
  | .leaf .., h => by
    obtain ⟨h1, h2, h3, h4⟩ := h
    exact ⟨h1, h2, by simp [h3], h4⟩
  | .split .., h => by
    obtain ⟨h1, h2, h3, h4, h5, h6, h7, h8⟩ := h
    exact ⟨h1, h2, h3, h4, h5, h6, XgbDump.held_scale h7, XgbDump.held_scale h8⟩

/-- What the loader builds from a written dump. -/
theorem xgbText_held {fl : List Char → Option ℚ} {name : Nat → List Char} {col : Nat → Nat} (hr : ReadAs name col) (s : ℚ) {X : XgbText} {T : XgbDump}
    (h : X.Writes fl name T) (hT : IsXgbDump T) : ∃ t, xgbText fl s X.text = some t ∧ (T.recolumn col).Held s t ∧ t.size = T.maxId + 1 ∧
      ∀ j, j ∉ T.ids → t.left j = -1 ∧ (∀ k, t.value j k = s) ∧ t.weight j = 0 := by
  obtain ⟨h1, h2, h3⟩ := xgbExtract_spec (s := 1) (T.recolumn col) (textInit (T.maxId + 1)) (by rw [T.recolumn_ids]; exact hT.nodup)
    (fun _ _ => ⟨rfl, rfl⟩)
  refine ⟨_, xgbText_eq hr s h hT.nodup, XgbDump.held_scale h1, h2, fun j hj => ?_⟩
  obtain ⟨⟨p1, -, -, -, p5, p6⟩, -⟩ := h3 j (by rw [T.recolumn_ids]; exact hj)
  refine ⟨p1.symm, fun k => ?_, p6.symm⟩
  show (xgbExtract 1 (T.recolumn col) (textInit (T.maxId + 1))).value j k * s = s
  rw [← congrFun p5 k]
  simp [textInit]

theorem defaultName_readAs : ReadAs defaultName fun f => f where
  safe f c hc := by
    rcases List.mem_cons.1 hc with rfl | hc
    · decide
    · intro hm
      have hd := num_digit hc
      simp only [List.mem_cons, List.not_mem_nil, or_false] at hm
      rcases hm with rfl | rfl | rfl | rfl | rfl | rfl | rfl | rfl | rfl | rfl <;> revert hd <;> decide
  ne f := by simp [defaultName]
  read f := by simpa [defaultName] using pyInt_num f

/-! ### An example -/

/-- A reading of decimal integers, possibly negative. -/
def exFloat : List Char → Option ℚ
  | '-' :: s => (pyInt s).map fun n => -(n : ℚ)
  | s => (pyInt s).map fun n => (n : ℚ)

/-- The text of the dump `exXgb`. -/
def exText : XgbText :=
  .split 0 (defaultName 1) ['3'] 1 2 2 ['8'] ['1', '0']
    (.split 1 (defaultName 0) ['-', '1'] 4 3 3 ['2'] ['6'] (.leaf 3 ['5'] ['2']) (.leaf 4 ['6'] ['4'])) (.leaf 2 ['7'] ['4'])

theorem isNumber_iff (s : List Char) : (s.all fun c => c ∈ ['0', '1', '2', '3', '4', '5', '6', '7', '8', '9', '.', 'e', '+', '-']) = true → IsNumber s := by
  intro h c hc
  simpa using List.all_eq_true.1 h c hc

theorem exText_writes : exText.Writes exFloat defaultName exXgb := by
  refine ⟨rfl, rfl, isNumber_iff _ (by decide), by decide +kernel, rfl, rfl, rfl, isNumber_iff _ (by decide), isNumber_iff _ (by decide), by decide +kernel,
    ⟨rfl, rfl, isNumber_iff _ (by decide), by decide +kernel, rfl, rfl, rfl, isNumber_iff _ (by decide), isNumber_iff _ (by decide), by decide +kernel,
      ⟨rfl, isNumber_iff _ (by decide), by decide +kernel, isNumber_iff _ (by decide), by decide +kernel⟩,
      ⟨rfl, isNumber_iff _ (by decide), by decide +kernel, isNumber_iff _ (by decide), by decide +kernel⟩⟩,
    ⟨rfl, isNumber_iff _ (by decide), by decide +kernel, isNumber_iff _ (by decide), by decide +kernel⟩⟩

/-- The text itself. -/
example : String.ofList exText.text = "0:[f1<3] yes=1,no=2,missing=2,gain=8,cover=10\n\t1:[f0<-1] yes=4,no=3,missing=3,gain=2,cover=6\n\t\t3:leaf=5,cover=2\n\t\t4:leaf=6,cover=4\n\t2:leaf=7,cover=4\n" := by
  decide +kernel

/-! ### The property -/

/-- **C100 (partial).** For every tree, the text dump of XGBoost with default names of columns is accepted, whatever the way decimal numbers are read; the loaded
tree ends, for every observation that hits no split condition exactly, missing values included, in a leaf with the value XGBoost predicts, times the
scaling, and its cover. Missing: values equal to a split condition (`C100_threshold_false`) and named columns (`C100_names_false`). -/
theorem C100_partial {fl : List Char → Option ℚ} (s : ℚ) {X : XgbText} {T : XgbDump} (h : X.Writes fl defaultName T) (hT : IsXgbDump T) {x : Obs}
    (hx : T.Off x) :
    ∃ t ℓ, xgbText fl s X.text = some t ∧ t.leafOf x = some ℓ ∧ (∀ k, t.value ℓ k = T.predict x * s) ∧ t.weight ℓ = T.reached x := by
  obtain ⟨t, e, h1, h2, -⟩ := xgbText_held defaultName_readAs s h hT
  rw [T.recolumn_self] at h1
  have he := T.toB_encodes hT.nodup hT.linked h1
  refine ⟨t, T.toB.descendObs _ x, e, ?_, T.held_predict hT.nodup hT.linked h1 hx⟩
  have hlen : T.toB.ids.length ≤ t.size := by
    rw [h2, T.toB_ids.length_eq]
    have := List.subperm_of_subset hT.nodup (l₂ := List.range (T.maxId + 1)) fun n hn =>
      List.mem_range.2 (Nat.lt_succ_of_le (T.le_maxId n hn))
    simpa using this.length_le
  have := walk_obs x T.toB he t.size (le_trans (le_of_lt T.toB.height_lt) hlen)
  rw [T.toB_id, hT.root] at this
  exact this

example : ∃ X T, XgbText.Writes exFloat defaultName X T ∧ IsXgbDump T ∧ T.Off fun j => if j = 1 then some 2 else none :=
  ⟨exText, exXgb, exText_writes, exXgb_dump, by simp [exXgb, XgbDump.Off]⟩

example : ((xgbText exFloat 2 exText.text).bind fun t => (t.leafOf fun j => if j = 1 then some 2 else some (-5)).map (t.value · 0)) = some 12 := by
  decide +kernel

/-- **C100, structure.** A dump whose numbers have no gap is loaded as a well-formed tree. -/
theorem C100_structure {fl : List Char → Option ℚ} (s : ℚ) {X : XgbText} {T : XgbDump} (h : X.Writes fl defaultName T) (hT : IsXgbDump T)
    (hgap : ∀ n ≤ T.maxId, n ∈ T.ids) {d : Nat} (hd : ∀ f ∈ T.vars, f < d) :
    ∃ t, xgbText fl s X.text = some t ∧ WellFormed t d ∧ t.size = T.ids.length := by
  obtain ⟨t, e, h1, h2, -⟩ := xgbText_held defaultName_readAs s h hT
  rw [T.recolumn_self] at h1
  have hall : ∀ n, n ∈ T.toB.ids ↔ n < t.size := by
    intro n
    rw [T.toB_ids.mem_iff, h2]
    exact ⟨fun hn => Nat.lt_succ_of_le (T.le_maxId n hn), fun hn => hgap n (Nat.le_of_lt_succ hn)⟩
  have ht : IsTree t d T.toB :=
    ⟨by rw [T.toB_id]; exact hT.root, T.toB_encodes hT.nodup hT.linked h1, T.toB_ids.nodup_iff.2 hT.nodup, hall,
      fun f hf => hd f (T.toB_vars.mem_iff.1 hf)⟩
  exact ⟨t, e, ⟨_, ht⟩, by rw [← ids_length ht, T.toB_ids.length_eq]⟩

/-- The two trees agree on the nodes of a dump, apart from the fields XGBoost does not write. -/
def XgbDump.Agree (t u : TreeArr) : XgbDump → Prop
  | .leaf i _ _ => t.isLeaf i = true ∧ u.isLeaf i = true ∧ t.value i = u.value i ∧ t.weight i = u.weight i
  | .split i _ _ _ _ _ _ a b => t.left i = u.left i ∧ t.right i = u.right i ∧ t.dflt i = u.dflt i ∧ t.feature i = u.feature i ∧
      t.threshold i = u.threshold i ∧ t.weight i = u.weight i ∧ a.Agree t u ∧ b.Agree t u

theorem XgbDump.held_agree {s : ℚ} {t u : TreeArr} : ∀ {T : XgbDump}, T.Held s t → T.Held s u → T.Agree t u
  | .leaf .., h, k => by
    obtain ⟨h1, h2, h3, h4⟩ := h
    obtain ⟨k1, k2, k3, k4⟩ := k
    exact ⟨by simp [TreeArr.isLeaf, h1], by simp [TreeArr.isLeaf, k1], h3.trans k3.symm, h4.trans k4.symm⟩
  | .split .., h, k => by
    obtain ⟨h1, h2, h3, h4, h5, h6, h7, h8⟩ := h
    obtain ⟨k1, k2, k3, k4, k5, k6, k7, k8⟩ := k
    exact ⟨h1.trans k1.symm, h2.trans k2.symm, h3.trans k3.symm, h4.trans k4.symm, h5.trans k5.symm, h6.trans k6.symm,
      XgbDump.held_agree h7 k7, XgbDump.held_agree h8 k8⟩

/-- **C100, formats.** The text dump and the JSON dump of a tree are loaded as the same tree: same size, children, default children, columns, split
conditions, covers and leaf values on every node of the dump. -/
theorem C100_json {fl : List Char → Option ℚ} (junk : Nat → ℚ) (s : ℚ) {X : XgbText} {T : XgbDump} (h : X.Writes fl defaultName T) (hT : IsXgbDump T) :
    ∃ t, xgbText fl s X.text = some t ∧ t.size = (xgbJson junk s T).size ∧ T.Agree t (xgbJson junk s T) := by
  obtain ⟨t, e, h1, h2, -⟩ := xgbText_held defaultName_readAs s h hT
  obtain ⟨k1, k2, -⟩ := xgbJson_held junk s hT
  rw [T.recolumn_self] at h1
  exact ⟨t, e, h2.trans k2.symm, XgbDump.held_agree h1 k1⟩

/-- **C100, gaps.** A number that no node of the dump has becomes a leaf of the loaded tree whose value is the scaling and whose cover is 0; from the JSON
dump its value is 0 and its cover arbitrary (`C68_gap`). -/
theorem C100_gap {fl : List Char → Option ℚ} (s : ℚ) {X : XgbText} {T : XgbDump} (h : X.Writes fl defaultName T) (hT : IsXgbDump T) {n : Nat}
    (hn : n ≤ T.maxId) (hgap : n ∉ T.ids) :
    ∃ t, xgbText fl s X.text = some t ∧ n < t.size ∧ t.isLeaf n = true ∧ (∀ k, t.value n k = s) ∧ t.weight n = 0 := by
  obtain ⟨t, e, -, h2, h3⟩ := xgbText_held defaultName_readAs s h hT
  obtain ⟨a, b, c⟩ := h3 n hgap
  exact ⟨t, e, by rw [h2]; omega, by simp [TreeArr.isLeaf, a], b, c⟩

/-- What C100 asks of the predictions, for a naming of the columns. -/
def C100_claim (name : Nat → List Char) (ok : XgbDump → Obs → Prop) : Prop :=
  ∀ (fl : List Char → Option ℚ) (X : XgbText) (T : XgbDump) (x : Obs) (t : TreeArr), X.Writes fl name T → IsXgbDump T → ok T x →
    xgbText fl 1 X.text = some t → ∃ ℓ, t.leafOf x = some ℓ ∧ t.value ℓ 0 = T.predict x

/-- Restricted to observations off the split conditions the claim holds for the default names. -/
theorem C100_claim_default : C100_claim defaultName fun T x => T.Off x := by
  intro fl X T x t h hT hx e
  obtain ⟨u, ℓ, e', h1, h2, -⟩ := C100_partial 1 h hT hx
  obtain rfl := Option.some.inj (e'.symm.trans e)
  exact ⟨ℓ, h1, by rw [h2, mul_one]⟩

/-- **C100, thresholds.** A value equal to a split condition goes to `yes` where XGBoost goes to `no`. -/
theorem C100_threshold_false : ¬ C100_claim defaultName fun _ _ => True := by
  intro h
  obtain ⟨t, e⟩ : ∃ t, xgbText exFloat 1 exText.text = some t := ⟨_, xgbText_eq defaultName_readAs 1 exText_writes exXgb_dump.nodup⟩
  obtain ⟨ℓ, h1, h2⟩ := h exFloat exText exXgb (fun j => if j = 1 then some 3 else some 0) t exText_writes exXgb_dump trivial e
  have k : ((xgbText exFloat 1 exText.text).bind fun t => (t.leafOf fun j => if j = 1 then some 3 else some 0).map (t.value · 0)) = some 5 := by
    decide +kernel
  rw [e] at k
  simp only [Option.bind_some, h1, Option.map_some, Option.some.injEq] at k
  rw [h2] at k
  revert k
  decide +kernel

/-- **C100, names.** Whatever safe names the columns have, a column is read from the characters of its name after the first: the loaded tree is that of the
dump with column `f` replaced by the number written in its name. -/
theorem C100_names {fl : List Char → Option ℚ} (s : ℚ) {name : Nat → List Char} {col : Nat → Nat} (hr : ReadAs name col) {X : XgbText} {T : XgbDump}
    (h : X.Writes fl name T) (hT : IsXgbDump T) (junk : Nat → ℚ) :
    ∃ t, xgbText fl s X.text = some t ∧ t.size = (xgbJson junk s (T.recolumn col)).size ∧ (T.recolumn col).Agree t (xgbJson junk s (T.recolumn col)) := by
  obtain ⟨t, e, h1, h2, -⟩ := xgbText_held hr s h hT
  obtain ⟨k1, k2, -⟩ := xgbJson_held junk s (T := T.recolumn col) ⟨by rw [T.recolumn_id]; exact hT.root, by rw [T.recolumn_ids]; exact hT.nodup,
    XgbDump.recolumn_linked hT.linked⟩
  refine ⟨t, e, h2.trans ?_, XgbDump.held_agree h1 k1⟩
  rw [k2]
  congr 1
  have a := foldl_max_ids T 0
  have b := foldl_max_ids (T.recolumn col) 0
  rw [T.recolumn_ids, a] at b
  simpa using b

/-- The columns are called `x1`, `x2`, ... -/
def xName (f : Nat) : List Char := 'x' :: num (f + 1)

theorem xName_readAs : ReadAs xName fun f => f + 1 where
  safe f c hc := by
    rcases List.mem_cons.1 hc with rfl | hc
    · decide
    · intro hm
      have hd := num_digit hc
      simp only [List.mem_cons, List.not_mem_nil, or_false] at hm
      rcases hm with rfl | rfl | rfl | rfl | rfl | rfl | rfl | rfl | rfl | rfl <;> revert hd <;> decide
  ne f := by simp [xName]
  read f := by simpa [xName] using pyInt_num (f + 1)

/-- A stump on column 0. -/
def exNamedStump : XgbDump := .split 0 0 3 1 2 1 9 (.leaf 1 5 4) (.leaf 2 7 5)

/-- Its text when column 0 is called `x1`. -/
def exNamed : XgbText := .split 0 (xName 0) ['3'] 1 2 1 ['8'] ['9'] (.leaf 1 ['5'] ['4']) (.leaf 2 ['7'] ['5'])

/-- **C100, named columns.** With columns `x1`, `x2`, ... the dump is accepted and every split is on the next column. -/
theorem C100_names_false : ¬ C100_claim xName fun T x => T.Off x := by
  intro h
  have hw : exNamed.Writes exFloat xName exNamedStump :=
    ⟨rfl, rfl, isNumber_iff _ (by decide), by decide +kernel, rfl, rfl, rfl, isNumber_iff _ (by decide), isNumber_iff _ (by decide), by decide +kernel,
      ⟨rfl, isNumber_iff _ (by decide), by decide +kernel, isNumber_iff _ (by decide), by decide +kernel⟩,
      ⟨rfl, isNumber_iff _ (by decide), by decide +kernel, isNumber_iff _ (by decide), by decide +kernel⟩⟩
  have hd : IsXgbDump exNamedStump := ⟨rfl, by decide, Or.inl ⟨rfl, rfl⟩, Or.inl rfl, trivial, trivial⟩
  obtain ⟨t, e⟩ : ∃ t, xgbText exFloat 1 exNamed.text = some t := ⟨_, xgbText_eq xName_readAs 1 hw hd.nodup⟩
  obtain ⟨ℓ, h1, h2⟩ := h exFloat exNamed exNamedStump (fun j => if j = 0 then some 0 else some 10) t hw hd (by simp [exNamedStump, XgbDump.Off]) e
  have k : ((xgbText exFloat 1 exNamed.text).bind fun t => (t.leafOf fun j => if j = 0 then some 0 else some 10).map (t.value · 0)) = some 7 := by
    decide +kernel
  rw [e] at k
  simp only [Option.bind_some, h1, Option.map_some, Option.some.injEq] at k
  rw [h2] at k
  revert k
  decide +kernel

/-- What a user would expect of a dump whose last line end was stripped: it is refused or its covers are kept. -/
def C100_stripped_claim : Prop :=
  ∀ (fl : List Char → Option ℚ) (X : XgbText) (T : XgbDump) (t : TreeArr), X.Writes fl defaultName T → IsXgbDump T →
    xgbText fl 1 X.text.dropLast = some t → ∀ u, xgbText fl 1 X.text = some u → ∀ i ∈ T.ids, t.weight i = u.weight i

/-- **C100, stripped dumps.** Without its last line end the dump is accepted and loses the last digit of the last cover. -/
theorem C100_stripped_false : ¬ C100_stripped_claim := by
  intro h
  have hw : (XgbText.leaf 0 ['5'] ['4', '2']).Writes exFloat defaultName (.leaf 0 5 42) :=
    ⟨rfl, isNumber_iff _ (by decide), by decide +kernel, isNumber_iff _ (by decide), by decide +kernel⟩
  have hd : IsXgbDump (.leaf 0 5 42) := ⟨rfl, by decide, trivial⟩
  have a : (xgbText exFloat 1 (XgbText.leaf 0 ['5'] ['4', '2']).text.dropLast).map (·.weight 0) = some 4 := by decide +kernel
  have b : (xgbText exFloat 1 (XgbText.leaf 0 ['5'] ['4', '2']).text).map (·.weight 0) = some 42 := by decide +kernel
  obtain ⟨t, et, ht⟩ := Option.map_eq_some_iff.1 a
  obtain ⟨u, eu, hu⟩ := Option.map_eq_some_iff.1 b
  have := h exFloat _ _ t hw hd et u eu 0 (by simp [XgbDump.ids])
  rw [ht, hu] at this
  revert this
  decide +kernel

/-- **C100, spaces.** A split whose column has a space in its name repeats the column and the condition of the split before it. -/
theorem C100_space_repeats :
    (xgbText exFloat 1 (['0', ':', '['] ++ defaultName 1 ++ ['<', '2', ']', ' ', 'y', 'e', 's', '=', '1', ',', 'n', 'o', '=', '2', ',', 'm', 'i', 's', 's',
      'i', 'n', 'g', '=', '1', ',', 'c', 'o', 'v', 'e', 'r', '=', '9', '\n', '\t', '1', ':', '[', 'a', ' ', 'b', '<', '7', ']', ' ', 'y', 'e', 's', '=', '3',
      ',', 'n', 'o', '=', '4', ',', 'm', 'i', 's', 's', 'i', 'n', 'g', '=', '3', ',', 'c', 'o', 'v', 'e', 'r', '=', '5', '\n'])).map
        (fun t => (t.feature 1, t.threshold 1, t.left 1, t.weight 1)) = some (1, 2, 3, 5) := by
  decide +kernel

/-! ### Categorical splits -/

theorem dictPut_mem {key i : Nat} {v w : List Char} (hk : key ≠ i) : ∀ {d : List (Nat × List Char)}, (i, w) ∈ d → (i, w) ∈ dictPut key v d
  | p :: d, h => by
    unfold dictPut
    rcases List.mem_cons.1 h with rfl | h
    · rw [if_neg (Ne.symm hk)]; simp
    · split
      · simp [h]
      · exact List.mem_cons_of_mem _ (dictPut_mem hk h)

theorem dictPut_self (key : Nat) (v : List Char) : ∀ d : List (Nat × List Char), (key, v) ∈ dictPut key v d
  | [] => by simp [dictPut]
  | p :: d => by
    unfold dictPut
    split
    · simp
    · exact List.mem_cons_of_mem _ (dictPut_self key v d)

theorem dict_keep {i : Nat} {w : List Char} : ∀ (ls : List (List Char)) (d d' : List (Nat × List Char)), (i, w) ∈ d →
    (∀ l ∈ ls, ((pySplit [':'] l)[0]? >>= pyInt) ≠ some i) → ls.foldlM dictLine d = some d' → (i, w) ∈ d'
  | [], d, d', h, _, e => by
    obtain rfl : d = d' := by simpa using e
    exact h
  | l :: ls, d, d', h, hk, e => by
    rw [List.foldlM_cons] at e
    obtain ⟨d1, e1, e2⟩ := Option.bind_eq_some_iff.1 e
    refine dict_keep ls d1 d' ?_ (fun l hl => hk l (by simp [hl])) e2
    unfold dictLine at e1
    obtain ⟨v, -, e1⟩ := Option.bind_eq_some_iff.1 e1
    obtain ⟨k, hk1, e1⟩ := Option.bind_eq_some_iff.1 e1
    obtain rfl := Option.some.inj e1
    exact dictPut_mem (key := k) (fun hki => hk l (by simp) (hk1.trans (congrArg some hki))) h

theorem foldlM_none {α β : Type} {f : β → α → Option β} {a : α} (h : ∀ b, f b a = none) : ∀ {l : List α}, a ∈ l → ∀ b, l.foldlM f b = none
  | x :: l, hm, b => by
    rw [List.foldlM_cons]
    rcases List.mem_cons.1 hm with rfl | hm
    · rw [h]; rfl
    · cases f b x with
      | none => rfl
      | some c => exact foldlM_none h hm c

/-- **C100, categorical splits.** A text with a categorical split, written `i:[name:{...}] ...` by XGBoost, is refused: whatever the other lines, as long as
no later line has the same number. -/
theorem C100_categorical (fl : List Char → Option ℚ) (s : ℚ) (before after : List (List Char)) (depth i : Nat) {name rest : List Char}
    (hn : SafeName name) (hr : '\n' ∉ rest) (hb : ∀ l ∈ before, '\n' ∉ l) (ha : ∀ l ∈ after, '\n' ∉ l)
    (hk : ∀ l ∈ after, ((pySplit [':'] (lstrip l))[0]? >>= pyInt) ≠ some i) :
    xgbText fl s ((before ++ [List.replicate depth '\t' ++ num i ++ [':', '['] ++ name ++ [':'] ++ rest] ++ after).flatMap (· ++ ['\n'])) = none := by
  set line := List.replicate depth '\t' ++ num i ++ [':', '['] ++ name ++ [':'] ++ rest with hline
  have hnl : '\n' ∉ line := by
    have h2 := num_not (n := i) (c := '\n') (by decide)
    have h3 : '\n' ∉ name := fun h => hn _ h (by decide)
    simp [hline, h2, h3, hr, List.mem_replicate]
  obtain ⟨l, ls, e⟩ : ∃ l ls, before ++ [line] ++ after = l :: ls := by cases before <;> exact ⟨_, _, rfl⟩
  have hsp : pySplit ['\n'] (((before ++ [line] ++ after).flatMap (· ++ ['\n'])).dropLast) = before ++ [line] ++ after := by
    rw [e]
    refine split_lines l ls fun x hx => ?_
    rw [← e] at hx
    simp only [List.mem_append, List.mem_singleton] at hx
    rcases hx with (hx | rfl) | hx
    · exact hb x hx
    · exact hnl
    · exact ha x hx
  unfold xgbText textNodes
  rw [hsp]
  cases hd : ((before ++ [line] ++ after).map lstrip).foldlM dictLine [] with
  | none => rfl
  | some d =>
    have hm : (i, '[' :: name) ∈ d := by
      rw [List.append_assoc, List.map_append, List.foldlM_append] at hd
      obtain ⟨d1, -, hd⟩ := Option.bind_eq_some_iff.1 hd
      rw [List.map_append, List.map_singleton, List.singleton_append, List.foldlM_cons] at hd
      obtain ⟨d2, h2, hd⟩ := Option.bind_eq_some_iff.1 hd
      refine dict_keep _ d2 d ?_ (by simpa using hk) hd
      have hl : lstrip line = num i ++ [':'] ++ (('[' :: name) ++ [':'] ++ rest) := by
        have : line = List.replicate depth '\t' ++ (num i ++ ([':'] ++ (('[' :: name) ++ [':'] ++ rest))) := by simp [hline]
        rw [this, lstrip_tabs, lstrip_num]
        simp
      rw [hl] at h2
      unfold dictLine at h2
      rw [pySplit_sep _ (num_not (by decide)), pySplit_sep _ (by
        have h3 : ':' ∉ name := fun h => hn _ h (by decide)
        simp [h3])] at h2
      simp only [List.getElem?_cons_zero, List.getElem?_cons_succ, Option.bind_eq_bind, Option.bind_some, pyInt_num, Option.some.injEq] at h2
      rw [← h2]
      exact dictPut_self ..
    have hnone : ∀ st, textNode fl st (i, '[' :: name) = none := by
      intro st
      have h1 : 'l' ∉ '[' :: name := by
        have h3 : 'l' ∉ name := fun h => hn _ h (by decide)
        simp [h3]
      have h2 : 'y' ∉ '[' :: name := by
        have h3 : 'y' ∉ name := fun h => hn _ h (by decide)
        simp [h3]
      unfold textNode intField
      simp only [pyIn_none (r := ['e', 'a', 'f']) h1, pySplit_none (r := ['e', 's', '=']) h2]
      rfl
    simp only [Option.bind_eq_bind, Option.bind_some, foldlM_none hnone hm, Option.bind_none]

/-- A categorical split at the root. -/
example : SafeName (defaultName 0) ∧ '\n' ∉ ['{', '1', '}', ']', ' ', 'y', 'e', 's', '=', '2'] := ⟨defaultName_readAs.safe 0, by decide⟩

/-! ### Names that are words -/

theorem pyInt_word {s : List Char} {c : Char} (hc : c ∈ s) (ha : c.isAlpha = true) : pyInt s = none := by
  have hw : c.isWhitespace = false := by
    simp only [Char.isAlpha, Char.isUpper, Char.isLower, Char.isWhitespace, Bool.or_eq_true, Bool.and_eq_true, decide_eq_true_eq] at ha ⊢
    have e : ∀ d : Char, c = d → c.val = d.val := fun d h => h ▸ rfl
    simp only [Bool.or_eq_false_iff, decide_eq_false_iff_not]
    refine ⟨⟨⟨?_, ?_⟩, ?_⟩, ?_⟩ <;>
    · intro h
      rw [h] at ha
      revert ha
      decide
  have hd : c.isDigit = false := by
    simp only [Char.isAlpha, Char.isUpper, Char.isLower, Char.isDigit, Bool.or_eq_true, Bool.and_eq_true, decide_eq_true_eq] at ha ⊢
    by_contra h
    simp only [Bool.not_eq_false, Bool.and_eq_true, decide_eq_true_eq] at h
    rcases ha with ⟨a, b⟩ | ⟨a, b⟩
    · exact absurd (UInt32.le_trans a h.2) (by decide)
    · exact absurd (UInt32.le_trans a h.2) (by decide)
  have keep : ∀ l : List Char, c ∈ l → c ∈ lstrip l := by
    intro l h
    unfold lstrip
    induction l with
    | nil => simp at h
    | cons x l ih =>
      rw [List.dropWhile_cons]
      split
      · rename_i hx
        rcases List.mem_cons.1 h with rfl | h
        · rw [hx] at hw; cases hw
        · exact ih h
      · exact h
  have h1 : c ∈ (lstrip (lstrip s).reverse).reverse :=
    List.mem_reverse.2 (keep _ (List.mem_reverse.2 (keep _ hc)))
  unfold pyInt
  simp only
  rw [if_neg]
  rintro ⟨-, h2⟩
  rw [List.all_eq_true] at h2
  rw [h2 c h1] at hd
  cases hd

/-- **C100, words.** A text with a split on a column whose name has a letter after its first character, such as `age`, is refused: whatever the other lines, as
long as no later line has the same number. -/
theorem C100_words (fl : List Char → Option ℚ) (s : ℚ) (before after : List (List Char)) (depth i : Nat) {name thr g c : List Char} {yes no mis : Nat}
    {ch : Char} (hch : ch ∈ name.drop 1) (hal : ch.isAlpha = true) (hn : SafeName name) (ht : IsNumber thr) (hg : IsNumber g) (hc : IsNumber c)
    (hb : ∀ l ∈ before, '\n' ∉ l) (ha : ∀ l ∈ after, '\n' ∉ l) (hk : ∀ l ∈ after, ((pySplit [':'] (lstrip l))[0]? >>= pyInt) ≠ some i) :
    xgbText fl s ((before ++ [List.replicate depth '\t' ++ num i ++ [':'] ++ splitText name thr yes no mis g c] ++ after).flatMap (· ++ ['\n'])) = none := by
  set line := List.replicate depth '\t' ++ num i ++ [':'] ++ splitText name thr yes no mis g c with hline
  have hnl : '\n' ∉ line := by
    have h2 := num_not (n := i) (c := '\n') (by decide)
    have h3 : '\n' ∉ splitText name thr yes no mis g c := splitText_not hn ht hg hc (by decide) (by decide) (by decide) (by decide)
    simp [hline, h2, h3, List.mem_replicate]
  obtain ⟨l, ls, e⟩ : ∃ l ls, before ++ [line] ++ after = l :: ls := by cases before <;> exact ⟨_, _, rfl⟩
  have hsp : pySplit ['\n'] (((before ++ [line] ++ after).flatMap (· ++ ['\n'])).dropLast) = before ++ [line] ++ after := by
    rw [e]
    refine split_lines l ls fun x hx => ?_
    rw [← e] at hx
    simp only [List.mem_append, List.mem_singleton] at hx
    rcases hx with (hx | rfl) | hx
    · exact hb x hx
    · exact hnl
    · exact ha x hx
  unfold xgbText textNodes
  rw [hsp]
  cases hd : ((before ++ [line] ++ after).map lstrip).foldlM dictLine [] with
  | none => rfl
  | some d =>
    have hm : (i, splitText name thr yes no mis g c) ∈ d := by
      rw [List.append_assoc, List.map_append, List.foldlM_append] at hd
      obtain ⟨d1, -, hd⟩ := Option.bind_eq_some_iff.1 hd
      rw [List.map_append, List.map_singleton, List.singleton_append, List.foldlM_cons] at hd
      obtain ⟨d2, h2, hd⟩ := Option.bind_eq_some_iff.1 hd
      refine dict_keep _ d2 d ?_ (by simpa using hk) hd
      have hl : lstrip line = num i ++ [':'] ++ splitText name thr yes no mis g c := by
        have : line = List.replicate depth '\t' ++ (num i ++ ([':'] ++ splitText name thr yes no mis g c)) := by simp [hline]
        rw [this, lstrip_tabs, lstrip_num]
        simp
      rw [hl] at h2
      unfold dictLine at h2
      rw [pySplit_sep _ (num_not (by decide)), pySplit_none (splitText_not hn ht hg hc (by decide) (by decide) (by decide) (by decide))] at h2
      simp only [List.getElem?_cons_zero, List.getElem?_cons_succ, Option.bind_eq_bind, Option.bind_some, pyInt_num, Option.some.injEq] at h2
      rw [← h2]
      exact dictPut_self ..
    have hnone : ∀ st, textNode fl st (i, splitText name thr yes no mis g c) = none := by
      intro st
      have nm : ∀ {x : Char}, x ∈ [':', '\n', ' ', '<', '=', 'l', 'y', 'n', 'm', 'c'] → x ∉ name := fun h hm => hn _ hm h
      have e1 : pyIn ['l', 'e', 'a', 'f'] (splitText name thr yes no mis g c) = false :=
        pyIn_none (splitText_not hn ht hg hc (by decide) (by decide) (by decide) (by decide))
      have hft : (pySplit [' '] (splitText name thr yes no mis g c))[0]? = some (['['] ++ name ++ ['<'] ++ thr ++ [']']) := by
        have : splitText name thr yes no mis g c = (['['] ++ name ++ ['<'] ++ thr ++ [']']) ++ [' '] ++ (['y', 'e', 's', '='] ++ num yes ++
          [',', 'n', 'o', '='] ++ num no ++ [',', 'm', 'i', 's', 's', 'i', 'n', 'g', '='] ++ num mis ++ [',', 'g', 'a', 'i', 'n', '='] ++ g ++
          [',', 'c', 'o', 'v', 'e', 'r', '='] ++ c) := by simp [splitText]
        rw [this, pySplit_sep _ (by simp [nm (x := ' ') (by decide), ht.not (c := ' ') (by decide)])]
        rfl
      have hlt : (pySplit ['<'] (['['] ++ name ++ ['<'] ++ thr ++ [']']))[0]? = some (['['] ++ name) := by
        have : ['['] ++ name ++ ['<'] ++ thr ++ [']'] = (['['] ++ name) ++ ['<'] ++ (thr ++ [']']) := by simp
        rw [this, pySplit_sep _ (by simp [nm (x := '<') (by decide)])]
        rfl
      have i1 : pyIn ['<'] (['['] ++ name ++ ['<'] ++ thr ++ [']']) = true := pyIn_one (by simp)
      have hdrop : (['['] ++ name).drop 2 = name.drop 1 := by simp
      have hcond : condVars fl (splitText name thr yes no mis g c) st.2 = none := by
        unfold condVars condAt
        simp only [hft, hlt, i1, if_true, Option.bind_eq_bind, Option.bind_some, hdrop, pyInt_word hch hal, Option.bind_none, Option.map_none]
      unfold textNode
      simp only [e1, hcond, Bool.false_eq_true, if_false, Option.bind_eq_bind, Option.bind_none]
      cases intField ['y', 'e', 's', '='] (splitText name thr yes no mis g c) <;>
        cases intField ['n', 'o', '='] (splitText name thr yes no mis g c) <;>
        cases intField ['m', 'i', 's', 's', 'i', 'n', 'g', '='] (splitText name thr yes no mis g c) <;> rfl
    simp only [Option.bind_eq_bind, Option.bind_some, foldlM_none hnone hm, Option.bind_none]

/-- The column `age`. -/
example : SafeName ['a', 'g', 'e'] ∧ 'g' ∈ ['a', 'g', 'e'].drop 1 ∧ 'g'.isAlpha = true ∧ IsNumber ['3'] := by
  refine ⟨?_, by decide, by decide, isNumber_iff _ (by decide)⟩
  unfold SafeName
  decide

end Acv
