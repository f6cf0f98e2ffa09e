import Verif.Lemmas.Biased
import Verif.Props.SdpReg

/-! # C79: biased sufficient rules -/

namespace Acv

open Classical in
/-- The number of background rows that satisfy a condition. -/
noncomputable def rowCount (data : Nat → Row) (N : Nat) (P : Row → Prop) : Nat := ((List.range N).filter fun i => decide (P (data i))).length

open Classical in
theorem countIn_eq {S : List Nat} (hS : S ≠ []) (data : Nat → Row) (N : Nat) {r : Rule} {P : Row → Prop} (h : ∀ z, Meets S r z ↔ P z) :
    countIn S data N r = rowCount data N P := by
  unfold countIn rowCount
  rw [if_neg hS]
  congr 1
  apply List.filter_congr
  intro i _
  rw [Bool.eq_iff_iff, inRuleS_meets, h, decide_eq_true_iff]

/-- `d` is the depth kept for tree `t`: more than `min_node_size` background rows satisfy the first `d` levels, and no larger depth
(up to the depth of the forest) has as many. -/
def KeptDepth (t : TreeArr) (S : List Nat) (x : Row) (data : Nat → Row) (N minSize maxDepth d : Nat) : Prop :=
  1 ≤ d ∧ d ≤ maxDepth ∧ minSize < rowCount data N (FirstLevels t S x d) ∧
    ∀ d', d < d' → d' ≤ maxDepth → rowCount data N (FirstLevels t S x d') ≤ minSize

theorem tree_level {S : List Nat} (hS : S ≠ []) {m : Nat} {x : Row} {data : Nat → Row} {minSize maxDepth N : Nat} {t : TreeArr} {mem : Mem}
    (h : TreeIn S m t mem) {r : Rule}
    (hr : compileTree S data N minSize (mem.levelRules S x maxDepth [0] []) maxDepth = .ok r) :
    ∃ d, KeptDepth t S x data N minSize maxDepth d ∧ ∀ z, Meets S r z ↔ FirstLevels t S x d z := by
  obtain ⟨d, h1, h2, h3, h4, h5⟩ := compileTree_ok hr
  have key : ∀ d r, 1 ≤ d → d ≤ maxDepth → meetAll ((mem.levelRules S x maxDepth [0] []).take d) = .ok r →
      ∀ z, Meets S r z ↔ FirstLevels t S x d z := by
    intro d r h1 h2 h3 z
    rw [meets_meetAll h3, firstLevels_iff h h1 h2]
  refine ⟨d, ⟨h1, h2, ?_, ?_⟩, key d r h1 h2 h3⟩
  · rwa [countIn_eq hS data N (key d r h1 h2 h3)] at h4
  · intro d' hd hd'
    have hne : (mem.levelRules S x maxDepth [0] []).take d' ≠ [] := by
      intro hc
      have : ((mem.levelRules S x maxDepth [0] []).take d').length = 0 := by rw [hc]; rfl
      rw [List.length_take, levelRules_length] at this
      omega
    obtain ⟨r', hr'⟩ := meetAll_ok hne
    have := h5 d' r' hd hd' hr'
    rwa [countIn_eq hS data N (key d' r' (by omega) hd' hr')] at this

theorem trees_level {S : List Nat} (hS : S ≠ []) {m : Nat} {x : Row} {data : Nat → Row} {minSize maxDepth N : Nat} {ts : List TreeArr}
    {mems : List Mem} (hf : List.Forall₂ (TreeIn S m) ts mems) {rs : List Rule}
    (hr : List.Forall₂ (fun l r => compileTree S data N minSize l maxDepth = .ok r)
      (mems.map fun mem => mem.levelRules S x maxDepth [0] []) rs) :
    ∃ ds, List.Forall₂ (fun t d => KeptDepth t S x data N minSize maxDepth d) ts ds ∧
      ∀ z, (∀ r ∈ rs, Meets S r z) ↔ List.Forall₂ (fun t d => FirstLevels t S x d z) ts ds := by
  induction hf generalizing rs with
  | nil =>
    cases hr
    exact ⟨[], .nil, fun z => by simp⟩
  | @cons t mem ts mems h1 _ ih =>
    cases hr with
    | @cons _ r _ rs h2 h3 =>
      obtain ⟨ds, h4, h5⟩ := ih h3
      obtain ⟨d, h6, h7⟩ := tree_level hS h1 h2
      refine ⟨d :: ds, .cons h6 h4, fun z => ?_⟩
      rw [List.forall₂_cons, List.forall_mem_cons, h5 z, h7 z]

theorem biased_ok {mems : List Mem} {S : List Nat} {x : Row} {data : Nat → Row} {minSize maxDepth N : Nat} {s : ℚ} {r : Rule}
    (h : sdpRuleBiased mems S x data minSize maxDepth N = .ok (s, r)) :
    s = 0 ∧ ∃ rs, List.Forall₂ (fun l r => compileTree S data N minSize l maxDepth = .ok r)
      (mems.map fun mem => mem.levelRules S x maxDepth [0] []) rs ∧ meetAll rs = .ok r := by
  unfold sdpRuleBiased compileRules at h
  cases hm : (mems.map fun mem => mem.levelRules S x maxDepth [0] []).mapM fun l => compileTree S data N minSize l maxDepth with
  | error e => rw [hm] at h; cases h
  | ok rs =>
    rw [hm] at h
    simp only at h
    cases ha : meetAll rs with
    | error e => rw [ha] at h; cases h
    | ok r' =>
      rw [ha] at h
      cases h
      exact ⟨rfl, rs, mapMx_ok hm, ha⟩

/-- **C79.** Whenever a biased rule is returned for a non-empty coalition, each tree contributes the splits of its first `d` levels,
`d` being the largest depth for which more than `min_node_size` background rows are on the side of the observation; a row meets the
rule exactly when it is on the side of the observation at all these splits; the columns outside the coalition are not restricted. -/
theorem C79_rule {S : List Nat} (hS : S ≠ []) {m : Nat} {x : Row} {data : Nat → Row} {minSize maxDepth N : Nat} {ts : List TreeArr}
    {mems : List Mem} (hf : List.Forall₂ (TreeIn S m) ts mems) {s : ℚ} {r : Rule}
    (h : sdpRuleBiased mems S x data minSize maxDepth N = .ok (s, r)) :
    (∃ ds, List.Forall₂ (fun t d => KeptDepth t S x data N minSize maxDepth d) ts ds ∧
      ∀ z : Row, (∀ f ∈ S, (r f).1 ≤ z f ∧ z f ≤ (r f).2) ↔ List.Forall₂ (fun t d => FirstLevels t S x d z) ts ds) ∧
    ∀ f, f ∉ S → r f = (-10000000000, 10000000000) := by
  obtain ⟨-, rs, h1, h2⟩ := biased_ok h
  constructor
  · obtain ⟨ds, h3, h4⟩ := trees_level hS hf h1
    refine ⟨ds, h3, fun z => ?_⟩
    rw [← h4 z]
    exact meets_meetAll h2 z
  · intro f hf'
    refine meetAll_congr f _ ?_ h2
    intro r' hr'
    obtain ⟨l, hl, hc⟩ : ∃ l ∈ (mems.map fun mem => mem.levelRules S x maxDepth [0] []), compileTree S data N minSize l maxDepth = .ok r' := by
      clear h2 h hf
      generalize (mems.map fun mem => mem.levelRules S x maxDepth [0] []) = ls at h1
      induction h1 with
      | nil => cases hr'
      | @cons l r0 ls rs h3 _ ih =>
        rcases List.mem_cons.1 hr' with rfl | hr'
        · exact ⟨l, by simp, h3⟩
        · obtain ⟨l', h5, h6⟩ := ih hr'
          exact ⟨l', by simp [h5], h6⟩
    obtain ⟨mem, -, rfl⟩ := List.mem_map.1 hl
    obtain ⟨d, -, -, h3, -⟩ := compileTree_ok hc
    refine meetAll_congr f _ (fun r hr => ?_) h3
    exact levelRules_other mem S x hf' _ _ _ r (List.mem_of_mem_take hr)

/-- **C79 (part).** The rule contains the observation, if its values in the coalition are within ±1e10. Missing (false): larger
values (`C79_huge_values_false`). -/
theorem C79_contains_partial {S : List Nat} (hS : S ≠ []) {m : Nat} {x : Row} {data : Nat → Row} {minSize maxDepth N : Nat}
    {ts : List TreeArr} {mems : List Mem} (hf : List.Forall₂ (TreeIn S m) ts mems) {s : ℚ} {r : Rule}
    (h : sdpRuleBiased mems S x data minSize maxDepth N = .ok (s, r)) (hx : ∀ f ∈ S, -10000000000 ≤ x f ∧ x f ≤ 10000000000) :
    ∀ f ∈ S, (r f).1 ≤ x f ∧ x f ≤ (r f).2 := by
  obtain ⟨⟨ds, h1, h2⟩, -⟩ := C79_rule hS hf h
  rw [h2 x]
  clear h2 h hf
  induction h1 with
  | nil => exact .nil
  | cons _ _ ih => exact .cons ⟨hx, fun k _ n _ _ _ _ => ⟨id, le_of_lt⟩⟩ ih

/-- Two trees: the rule of row 4 in the ladder and root trees, with more than 5 rows for each tree. -/
example : List.Forall₂ (TreeIn [0, 2] 3) [ladderTree, rootSplit] [Mem.ofTree ladderTree leafJunk, Mem.ofTree rootSplit leafJunk] ∧
    ((sdpRuleBiased [Mem.ofTree ladderTree leafJunk, Mem.ofTree rootSplit leafJunk] [0, 2] (diag 4) diag 4 3 10).toOption.map fun p =>
      (p.1, p.2 0, p.2 2)) = some (0, (1, 10000000000), (-10000000000, 5)) := by
  refine ⟨.cons (ladderTree_in _) (.cons (rootSplit_in _) .nil), by decide +kernel⟩

/-- **C79.** The claim without a bound on the values is false: the rule starts from the box ±1e10. -/
theorem C79_huge_values_false :
    ∃ (ts : List TreeArr) (mems : List Mem) (x : Row) (data : Nat → Row) (r : Rule), List.Forall₂ (TreeIn [0] 3) ts mems ∧
      sdpRuleBiased mems [0] x data 1 1 10 = .ok (0, r) ∧ ¬ ((r 0).1 ≤ x 0 ∧ x 0 ≤ (r 0).2) := by
  have h : ∃ r, sdpRuleBiased [Mem.ofTree rootSplit leafJunk] [0] (fun _ => 20000000000) diag 1 1 10 = .ok (0, r) ∧
      ¬ ((r 0).1 ≤ (20000000000 : ℚ) ∧ (20000000000 : ℚ) ≤ (r 0).2) := by
    cases hr : sdpRuleBiased [Mem.ofTree rootSplit leafJunk] [0] (fun _ => 20000000000) diag 1 1 10 with
    | error e =>
      have : (sdpRuleBiased [Mem.ofTree rootSplit leafJunk] [0] (fun _ => 20000000000) diag 1 1 10).toOption.isSome = true := by
        decide +kernel
      rw [hr] at this; cases this
    | ok p =>
      have h1 : ((sdpRuleBiased [Mem.ofTree rootSplit leafJunk] [0] (fun _ => 20000000000) diag 1 1 10).toOption.map fun p =>
        (p.1, p.2 0)) = some (0, (1, 10000000000)) := by decide +kernel
      rw [hr] at h1
      simp only [Except.toOption, Option.map_some, Option.some.injEq, Prod.mk.injEq] at h1
      refine ⟨p.2, by rw [← h1.1], ?_⟩
      rw [h1.2]
      norm_num
  obtain ⟨r, h1, h2⟩ := h
  exact ⟨[rootSplit], _, _, _, r, .cons (rootSplit_in _) .nil, h1, h2⟩

theorem firstLevels_mono {t : TreeArr} {S : List Nat} {x z : Row} {d d' : Nat} (h : d ≤ d') (hz : FirstLevels t S x d' z) :
    FirstLevels t S x d z :=
  ⟨hz.1, fun k hk n => hz.2 k (by omega) n⟩

open Classical in
theorem rowCount_mono {data : Nat → Row} {N : Nat} {P Q : Row → Prop} (h : ∀ z, P z → Q z) : rowCount data N P ≤ rowCount data N Q := by
  unfold rowCount
  apply List.Sublist.length_le
  apply List.monotone_filter_right
  intro i
  simp only [decide_eq_true_eq]
  exact h (data i)

/-- **C79.** No rule is returned (the call raises) exactly when there is no tree, no level, or a tree whose first split alone already
leaves no more than `min_node_size` background rows on the side of the observation. -/
theorem C79_fails_iff {S : List Nat} (hS : S ≠ []) {m : Nat} {x : Row} {data : Nat → Row} {minSize maxDepth N : Nat}
    {ts : List TreeArr} {mems : List Mem} (hf : List.Forall₂ (TreeIn S m) ts mems) :
    (∃ e, sdpRuleBiased mems S x data minSize maxDepth N = .error e) ↔
      ts = [] ∨ maxDepth = 0 ∨ ∃ t ∈ ts, rowCount data N (FirstLevels t S x 1) ≤ minSize := by
  have hcomp : (∃ e, sdpRuleBiased mems S x data minSize maxDepth N = .error e) ↔
      mems = [] ∨ ∃ mem ∈ mems, ∃ e, compileTree S data N minSize (mem.levelRules S x maxDepth [0] []) maxDepth = .error e := by
    unfold sdpRuleBiased compileRules
    have hme := mapMx_error (f := fun l => compileTree S data N minSize l maxDepth)
      (l := mems.map fun mem => mem.levelRules S x maxDepth [0] [])
    have hmap : (∃ a ∈ (mems.map fun mem => mem.levelRules S x maxDepth [0] []), ∃ e, compileTree S data N minSize a maxDepth = .error e) ↔
        ∃ mem ∈ mems, ∃ e, compileTree S data N minSize (mem.levelRules S x maxDepth [0] []) maxDepth = .error e := by
      simp
    rw [hmap] at hme
    cases hm : (mems.map fun mem => mem.levelRules S x maxDepth [0] []).mapM fun l => compileTree S data N minSize l maxDepth with
    | error e =>
      rw [hm] at hme
      exact ⟨fun _ => Or.inr (hme.1 ⟨e, rfl⟩), fun _ => ⟨e, rfl⟩⟩
    | ok rs =>
      rw [hm] at hme
      have hlen := (mapMx_ok hm).length_eq
      rw [List.length_map] at hlen
      simp only
      constructor
      · rintro ⟨e, h⟩
        left
        cases rs with
        | nil => exact List.length_eq_zero_iff.1 hlen
        | cons r rs => cases h
      · rintro (h | h)
        · subst h
          have : rs = [] := List.length_eq_zero_iff.1 hlen.symm
          subst this
          exact ⟨_, rfl⟩
        · obtain ⟨e, he⟩ := hme.2 h
          cases he
  have htree : ∀ t mem, TreeIn S m t mem →
      ((∃ e, compileTree S data N minSize (mem.levelRules S x maxDepth [0] []) maxDepth = .error e) ↔
        maxDepth = 0 ∨ rowCount data N (FirstLevels t S x 1) ≤ minSize) := by
    intro t mem ht
    rw [compileTree_error (by rw [levelRules_length])]
    have key : ∀ d r, 1 ≤ d → d ≤ maxDepth → meetAll ((mem.levelRules S x maxDepth [0] []).take d) = .ok r →
        countIn S data N r = rowCount data N (FirstLevels t S x d) := by
      intro d r h1 h2 h3
      refine countIn_eq hS data N fun z => ?_
      rw [meets_meetAll h3, firstLevels_iff ht h1 h2]
    constructor
    · intro h
      by_cases h0 : maxDepth = 0
      · exact Or.inl h0
      · right
        have hne : (mem.levelRules S x maxDepth [0] []).take 1 ≠ [] := by
          intro hc
          have : ((mem.levelRules S x maxDepth [0] []).take 1).length = 0 := by rw [hc]; rfl
          rw [List.length_take, levelRules_length] at this
          omega
        obtain ⟨r, hr⟩ := meetAll_ok hne
        have := h 1 r (le_refl _) (by omega) hr
        rwa [key 1 r (le_refl _) (by omega) hr] at this
    · rintro (h | h) d r h1 h2 h3
      · omega
      · rw [key d r h1 h2 h3]
        exact le_trans (rowCount_mono fun z hz => firstLevels_mono h1 hz) h
  rw [hcomp]
  clear hcomp
  induction hf with
  | nil => simp
  | @cons t mem ts mems h1 h2 ih =>
    simp only [List.mem_cons, exists_eq_or_imp, reduceCtorEq, false_or, htree t mem h1]
    have hrest : (∃ a ∈ mems, ∃ e, compileTree S data N minSize (a.levelRules S x maxDepth [0] []) maxDepth = .error e) →
        maxDepth = 0 ∨ ∃ t ∈ ts, rowCount data N (FirstLevels t S x 1) ≤ minSize := by
      rintro ⟨a, ha, he⟩
      rcases ih.1 (Or.inr ⟨a, ha, he⟩) with h | h
      · subst h
        cases h2
        cases ha
      · exact h
    have hrest' : (∃ t ∈ ts, rowCount data N (FirstLevels t S x 1) ≤ minSize) →
        ∃ a ∈ mems, ∃ e, compileTree S data N minSize (a.levelRules S x maxDepth [0] []) maxDepth = .error e := by
      rintro ⟨t', ht', hr⟩
      rcases ih.2 (Or.inr (Or.inr ⟨t', ht', hr⟩)) with h | h
      · subst h
        cases h2
        cases ht'
      · exact h
    constructor
    · rintro ((h | h) | h)
      · exact Or.inl h
      · exact Or.inr (Or.inl h)
      · rcases hrest h with h | h
        · exact Or.inl h
        · exact Or.inr (Or.inr h)
    · rintro (h | h | h)
      · exact Or.inl (Or.inl h)
      · exact Or.inl (Or.inr h)
      · exact Or.inr (hrest' h)

/-- both cases happen -/
example : (∃ p, sdpRuleBiased [Mem.ofTree rootSplit leafJunk] [0] (diag 4) diag 8 1 10 = .ok p) ∧
    ∃ e, sdpRuleBiased [Mem.ofTree rootSplit leafJunk] [0] (diag 4) diag 9 1 10 = .error e := by
  refine ⟨⟨_, rfl⟩, ⟨_, rfl⟩⟩

/-- **C79.** For an empty coalition and a positive minimum size the call raises. -/
theorem C79_no_columns (mems : List Mem) (x : Row) (data : Nat → Row) {minSize : Nat} (h : 1 ≤ minSize) (maxDepth N : Nat) :
    ∃ e, sdpRuleBiased mems [] x data minSize maxDepth N = .error e := by
  have hc : ∀ levels D, ∃ e, compileTree [] data N minSize levels D = .error e := by
    intro levels D
    induction D with
    | zero => exact ⟨_, rfl⟩
    | succ D ih =>
      unfold compileTree
      cases meetAll (levels.take (D + 1)) with
      | error e => exact ⟨e, rfl⟩
      | ok r =>
        simp only
        rw [if_pos (by unfold countIn; rw [if_pos rfl]; exact h)]
        exact ih
  cases mems with
  | nil => exact ⟨_, rfl⟩
  | cons mem mems =>
    obtain ⟨e, he⟩ := (mapMx_error (f := fun l => compileTree [] data N minSize l maxDepth)
      (l := (mem :: mems).map fun mem => mem.levelRules [] x maxDepth [0] [])).2 ⟨_, List.mem_map.2 ⟨mem, by simp, rfl⟩, hc _ _⟩
    refine ⟨e, ?_⟩
    unfold sdpRuleBiased compileRules
    rw [he]

/-- **C79.** The minimum size holds for each tree, not for the rule: here each tree keeps more than 5 rows (the call succeeds) and the
rule of the forest holds 5. -/
theorem C79_forest_rows_false :
    ∃ (ts : List TreeArr) (mems : List Mem), List.Forall₂ (TreeIn [0, 2] 3) ts mems ∧
      ∃ r, sdpRuleBiased mems [0, 2] (diag 4) diag 5 1 10 = .ok (0, r) ∧ countIn [0, 2] diag 10 r = 5 := by
  refine ⟨[rootSplit, stumpAt 2 5 0 1], [Mem.ofTree rootSplit leafJunk, Mem.ofTree (stumpAt 2 5 0 1) leafJunk],
    .cons (rootSplit_in _) (.cons ?_ .nil), _, rfl, by decide +kernel⟩
  exact
    { wf := stumpAt_wf (by decide) 5 0 1
      holds := ofTree_holds _ _
      leafChildren := by unfold LeafChildren stumpAt; decide
      negLeaf := by unfold NegLeafFeature stumpAt; decide
      before := by simp [Mem.BeforeIsLeaf, Mem.ofTree, leafJunk] }

/-- **C79.** The probability returned with a biased rule is 0 whatever the data, also when every background row has the output of the
observation (so that the SDP of the same coalition is 1). -/
theorem C79_sdp_false (mems : List Mem) (S : List Nat) (x : Row) (data : Nat → Row) (minSize maxDepth N : Nat) {s : ℚ} {r : Rule}
    (h : sdpRuleBiased mems S x data minSize maxDepth N = .ok (s, r)) :
    s = 0 ∧ sdpRf [Mem.ofTree rootSplit leafJunk] [0] (diag 4) 1 diag (fun _ => 1) 5 1 10 true (0, 0) = 1 ∧
    ∃ r', sdpRuleBiased [Mem.ofTree rootSplit leafJunk] [0] (diag 4) diag 5 1 10 = .ok (0, r') :=
  ⟨(biased_ok h).1, by decide +kernel, _, rfl⟩

theorem extend_none {N : Nat} {rule : Rule} {ruleData : Nat → Rule} {sdp : Nat → ℚ} {pi : ℚ} {S : List Nat} (h : ∀ j < N, sdp j < pi) :
    extendPartition N rule ruleData sdp pi S = rule := by
  unfold extendPartition
  have : ((List.range N).filter fun j => decide (pi ≤ sdp j)) = [] := by
    rw [List.filter_eq_nil_iff]
    intro j hj
    simpa using h j (List.mem_range.1 hj)
  rw [this]
  rfl

/-- **C79.** With `pi > 0` the "maximal" biased rules are never extended: `compute_sdp_maxrules_biased` returns the biased rule of the
observation, and `compute_sdp_maxrules_biased_v2` the plain rule of the observation. -/
theorem C79_never_extended (mems : List Mem) (S : List Nat) (x : Row) (yx : ℚ) (data : Nat → Row) (y : Nat → ℚ)
    (minSize maxDepth N : Nat) (classifier : Bool) (t : ℚ) {pi : ℚ} (hpi : 0 < pi) {p : ℚ × Rule} :
    (sdpMaxRuleBiased mems S x data minSize maxDepth N pi = .ok p → sdpRuleBiased mems S x data minSize maxDepth N = .ok p) ∧
    (sdpMaxRuleBiasedV2 mems S x yx data y minSize maxDepth N classifier t pi = .ok p →
      p = sdpRuleV0 mems S x yx data y minSize maxDepth N classifier t) := by
  have hget : ∀ {f : Nat → Except String (ℚ × Rule)} {l : List Nat} {rs : List (ℚ × Rule)}, l.mapM f = .ok rs →
      (∀ j q, f j = .ok q → q.1 = 0) → ∀ j, (rs.getD j (0, Rule.init)).1 = 0 := by
    intro f l rs h hf j
    have h2 := mapMx_ok h
    clear h
    induction h2 generalizing j with
    | nil => rfl
    | @cons a b l rs h3 _ ih =>
      cases j with
      | zero => exact hf a b h3
      | succ j => simpa using ih j
  constructor
  · intro h
    unfold sdpMaxRuleBiased at h
    cases h1 : sdpRuleBiased mems S x data minSize maxDepth N with
    | error e => rw [h1] at h; cases h
    | ok q =>
      obtain ⟨s, r⟩ := q
      rw [h1] at h
      simp only at h
      cases h2 : (List.range N).mapM fun j => sdpRuleBiased mems S (data j) data minSize maxDepth N with
      | error e => rw [h2] at h; cases h
      | ok rs =>
        rw [h2] at h
        simp only at h
        have h0 := hget h2 fun j q hq => (biased_ok (s := q.1) (r := q.2) hq).1
        rw [extend_none (fun j _ => by rw [h0 j]; exact hpi)] at h
        exact h
  · intro h
    unfold sdpMaxRuleBiasedV2 at h
    simp only at h
    cases h2 : (List.range N).mapM (fun j => if weightsV0 mems S x data minSize maxDepth N j ≠ 0 then
      sdpRuleBiased mems S (data j) data minSize maxDepth N else .ok (0, fun _ => (0, 0))) with
    | error e => rw [h2] at h; cases h
    | ok rs =>
      rw [h2] at h
      simp only at h
      have h0 := hget h2 (by
        intro j q hq
        split at hq
        · exact (biased_ok (s := q.1) (r := q.2) hq).1
        · cases hq; rfl)
      rw [extend_none (fun j _ => by rw [h0 j]; exact hpi)] at h
      cases h
      rfl

example : (∃ p, sdpMaxRuleBiased [Mem.ofTree rootSplit leafJunk] [0] (diag 4) diag 1 1 10 (9/10) = .ok p) ∧
    ∃ p, sdpMaxRuleBiasedV2 [Mem.ofTree rootSplit leafJunk] [0] (diag 4) 1 diag (fun _ => 1) 1 1 10 true 0 (9/10) = .ok p := by
  have h1 : (sdpMaxRuleBiased [Mem.ofTree rootSplit leafJunk] [0] (diag 4) diag 1 1 10 (9/10)).toOption.isSome = true := by decide +kernel
  have h2 : (sdpMaxRuleBiasedV2 [Mem.ofTree rootSplit leafJunk] [0] (diag 4) 1 diag (fun _ => 1) 1 1 10 true 0 (9/10)).toOption.isSome
    = true := by decide +kernel
  constructor
  · cases h : sdpMaxRuleBiased [Mem.ofTree rootSplit leafJunk] [0] (diag 4) diag 1 1 10 (9/10) with
    | error e => rw [h] at h1; cases h1
    | ok p => exact ⟨p, rfl⟩
  · cases h : sdpMaxRuleBiasedV2 [Mem.ofTree rootSplit leafJunk] [0] (diag 4) 1 diag (fun _ => 1) 1 1 10 true 0 (9/10) with
    | error e => rw [h] at h2; cases h2
    | ok p => exact ⟨p, rfl⟩

end Acv
