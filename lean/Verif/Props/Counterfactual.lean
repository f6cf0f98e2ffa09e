import Verif.Props.Sampling

/-!
# C47, C55-C58: counterfactual rules
-/

namespace Acv

/-! ## C56: enlarged leaves -/

/-- **C56.** Whatever the random draws, enlarging a leaf `rule` with the other leaves gives a rule that contains `rule` and whose training
rows (bounds included) all lie in `rule` or in one of the other leaves; it has the largest volume of all the rules tried. -/
theorem C56_enlarged (m N : Nat) (data : Nat → Row) (rule : Rule) (others : List Rule) (nTry batch maxIter maxConv : Nat)
    (o : AnnealDraws) {s : Anneal} (h : crAnneal m N data rule others nTry batch maxIter maxConv o = some s) :
    RuleLe m rule s.best ∧
    (∀ i < N, InClosed m s.best (data i) → InClosed m rule (data i) ∨ ∃ r ∈ others, InClosed m r (data i)) ∧
    s.bestEval = volume m N data s.best ∧ s.best ∈ s.seen ∧ ∀ c ∈ s.seen, volume m N data c ≤ s.bestEval := by
  unfold crAnneal annealing at h
  obtain ⟨b, hb, hbnd, hok⟩ := validLoop_ok (N := N) (data := data) (bad := crBad m data rule others) (rule := rule)
    (crBnd_self (m := m) (rule := rule) (others := others)) (Or.inl fun _ _ => rfl) o.first (nTry + 1) 0
  unfold validRule at h
  rw [hb] at h
  simp only at h
  by_cases h1 : m = 1 ∧ maxIter ≠ 0
  · rw [if_pos h1] at h
    cases h
  · rw [if_neg h1] at h
    obtain ⟨hs, -⟩ := annealLoop_ok
      (Good := fun c => Bnd m (crLeft rule others) (crRight rule others) c ∧
        OkRule m N data (crBad m data rule others) rule c) (fun i c r hc hr => by
        obtain ⟨r', hr', -, hall⟩ := genRules_ok hc.1 hc.2 nTry batch (o.draws i)
        rw [hr'] at hr
        cases hr
        exact hall) o.accept maxConv maxIter 0 _ s
      (⟨⟨hbnd, hok⟩, ⟨hbnd, hok⟩, rfl, by simp, by simp⟩) h
    refine ⟨crBnd_le hs.best.1, ?_, hs.eval, hs.mem, hs.top⟩
    intro i hi hin
    rcases hs.best.2 with h2 | h2
    · left
      intro j hj
      rw [← h2 j hj]
      exact hin j hj
    · by_contra hcon
      push Not at hcon
      exact checkRule_iff.1 h2 i hi (crBad_iff.2 hcon) hin

/-- **C56.** With at least two columns and a non-empty batch the enlarged rule exists. -/
theorem C56_returns {m : Nat} (hm : m ≠ 1) (N : Nat) (data : Nat → Row) (rule : Rule) (others : List Rule) (nTry : Nat) {batch : Nat}
    (hb : 0 < batch) (maxIter maxConv : Nat) (o : AnnealDraws) :
    ∃ s, crAnneal m N data rule others nTry batch maxIter maxConv o = some s := by
  unfold crAnneal annealing
  obtain ⟨b, hb', hbnd, hok⟩ := validLoop_ok (N := N) (data := data) (bad := crBad m data rule others) (rule := rule)
    (crBnd_self (m := m) (rule := rule) (others := others)) (Or.inl fun _ _ => rfl) o.first (nTry + 1) 0
  unfold validRule
  rw [hb']
  simp only
  rw [if_neg (fun h => hm h.1)]
  refine annealLoop_some
      (Good := fun c => Bnd m (crLeft rule others) (crRight rule others) c ∧
        OkRule m N data (crBad m data rule others) rule c) (fun i c hc => ?_) o.accept maxConv maxIter 0 _ ⟨hbnd, hok⟩
  obtain ⟨r', hr', hl, hall⟩ := genRules_ok hc.1 hc.2 nTry batch (o.draws i)
  exact ⟨r', hr', List.ne_nil_of_length_pos (by omega), hall⟩

/-- Draws that explore and take the `k`-th bound (modulo their number). -/
def exploreDraws (k : Nat) : AnnealDraws := ⟨fun _ => ⟨true, fun _ => k, fun _ => k⟩, fun _ _ _ => ⟨true, fun _ => k, fun _ => k⟩, fun _ => true⟩

example : ((crAnneal 2 5 sampleRows (fun _ => (0, 2)) [fun j => if j = 0 then (0, 4) else (0, 2)] 3 2 2 5 (exploreDraws 0)).map fun s =>
    (s.best 0, s.best 1)) = some ((0, 4), (0, 2)) := by decide +kernel

/-! ## C57: compatible leaves -/

theorem mem_compatibleLeaves {m : Nat} {l : List Box} {b : Box} (h : b ∈ compatibleLeaves m l) : ∃ b0 ∈ l, b = roundBox b0 := by
  unfold compatibleLeaves at h
  obtain ⟨b0, h0, rfl⟩ := List.mem_map.1 h
  refine ⟨b0, ?_, rfl⟩
  unfold removeIn at h0
  rw [mem_npUnique] at h0
  have : ∀ (is : List Nat) (ra : List Box), (∀ r ∈ (is.foldl (fun ra i => removeInRow m i ra) ra), r ∈ ra) ∧
      ((is.foldl (fun ra i => removeInRow m i ra) ra).length = ra.length) := by
    have inner : ∀ (i : Nat) (js : List Nat) (ra : List Box), (∀ j ∈ js, j < ra.length) →
        (∀ r ∈ (js.foldl (fun ra j => if i ≠ j ∧ boxIn m (ra.getD i []) (ra.getD j []) = true then ra.set i (ra.getD j []) else ra) ra), r ∈ ra)
        ∧ ((js.foldl (fun ra j => if i ≠ j ∧ boxIn m (ra.getD i []) (ra.getD j []) = true then ra.set i (ra.getD j []) else ra) ra).length
          = ra.length) := by
      intro i js
      induction js with
      | nil => exact fun ra _ => ⟨fun _ h => h, rfl⟩
      | cons j js ih =>
        intro ra hj
        rw [List.foldl_cons]
        by_cases hc : i ≠ j ∧ boxIn m (ra.getD i []) (ra.getD j []) = true
        · rw [if_pos hc]
          obtain ⟨h1, h2⟩ := ih (ra.set i (ra.getD j [])) (fun k hk => by simpa using hj k (by simp [hk]))
          refine ⟨fun r hr => ?_, by simpa using h2⟩
          rcases List.mem_or_eq_of_mem_set (h1 r hr) with h | h
          · exact h
          · rw [h]
            exact getD_mem (hj j (by simp))
        · rw [if_neg hc]
          exact ih ra fun k hk => hj k (by simp [hk])
    intro is
    induction is with
    | nil => exact fun ra => ⟨fun _ h => h, rfl⟩
    | cons i is ih =>
      intro ra
      rw [List.foldl_cons]
      obtain ⟨h1, h2⟩ := ih (removeInRow m i ra)
      obtain ⟨h3, h4⟩ := inner i (List.range ra.length) ra (fun j hj => List.mem_range.1 hj)
      exact ⟨fun r hr => h3 r (h1 r hr), h2.trans h4⟩
  exact mem_npUnique.1 ((this _ _).1 b0 h0)

theorem mem_pickLeaves {pi : ℚ} {cands : List (ℚ × Box)} {b : Box} (h : b ∈ pickLeaves pi cands) : ∃ p ∈ cands, p.2 = b := by
  unfold pickLeaves at h
  simp only at h
  split at h
  · rw [mem_npUnique] at h
    obtain ⟨p, hp, rfl⟩ := List.mem_map.1 h
    exact ⟨p, (List.mem_filter.1 hp).1, rfl⟩
  · obtain ⟨p, hp, rfl⟩ := List.mem_map.1 h
    exact ⟨p, (List.mem_insertionSort _).1 (List.mem_of_mem_take hp), rfl⟩

/-- Which leaves are kept: those that reach `pi`, or, if none does, leaves beaten by fewer than five others. -/
theorem pickLeaves_rank {pi : ℚ} {cands : List (ℚ × Box)} {b : Box} (h : b ∈ pickLeaves pi cands) : ∃ p ∈ cands, p.2 = b ∧
    (pi ≤ p.1 ∨ (∀ q ∈ cands, q.1 < pi) ∧ (cands.filter fun q => decide (p.1 < q.1)).length < 5) := by
  unfold pickLeaves at h
  simp only at h
  split at h
  · rw [mem_npUnique] at h
    obtain ⟨p, hp, rfl⟩ := List.mem_map.1 h
    have := List.mem_filter.1 hp
    exact ⟨p, this.1, rfl, Or.inl (by simpa using this.2)⟩
  · next hg =>
    have hg : cands.filter (fun p => decide (pi ≤ p.1)) = [] := by simpa using hg
    obtain ⟨p, hp, rfl⟩ := List.mem_map.1 h
    have hperm := List.perm_insertionSort (fun p q : ℚ × Box => q.1 ≤ p.1) cands
    refine ⟨p, (List.mem_insertionSort _).1 (List.mem_of_mem_take hp), rfl, Or.inr ⟨?_, ?_⟩⟩
    · intro q hq
      have := List.filter_eq_nil_iff.1 hg q hq
      simpa using this
    · rw [← (hperm.filter _).length_eq]
      haveI : Std.Total (fun p q : ℚ × Box => q.1 ≤ p.1) := ⟨fun a b => le_total _ _⟩
      haveI : IsTrans (ℚ × Box) (fun p q : ℚ × Box => q.1 ≤ p.1) := ⟨fun a b c h1 h2 => le_trans h2 h1⟩
      have hs := List.pairwise_insertionSort (fun p q : ℚ × Box => q.1 ≤ p.1) cands
      generalize cands.insertionSort (fun p q => q.1 ≤ p.1) = s at hp hs
      rw [← List.take_append_drop 5 s] at hs ⊢
      rw [List.pairwise_append] at hs
      rw [List.filter_append, List.length_append]
      have h2 : (s.drop 5).filter (fun q => decide (p.1 < q.1)) = [] := by
        rw [List.filter_eq_nil_iff]
        intro q hq
        simpa using hs.2.2 p hp q hq
      have h1 : ((s.take 5).filter fun q => decide (p.1 < q.1)).length < (s.take 5).length :=
        List.length_filter_lt_length_iff_exists.2 ⟨p, hp, by simp⟩
      have := List.length_take_le 5 s
      rw [h2, List.length_nil]
      omega

/-- Which rows are used: those in the projected leaf if there is one. -/
theorem cntRows_weight {N : Nat} {w : Nat → ℚ} {hit : Nat → Bool} {i : Nat} (h : i ∈ cntRows N w hit) :
    w i ≠ 0 ∨ ∀ j < N, hit j = true → w j = 0 := by
  unfold cntRows at h
  simp only at h
  split at h
  · next hl =>
    right
    intro j hj hh
    have := List.filter_eq_nil_iff.1 hl j (List.mem_range.2 hj)
    simpa [hh] using this
  · have := List.mem_filter.1 h
    simp only [Bool.and_eq_true, decide_eq_true_eq] at this
    exact Or.inl this.2.1

theorem mem_cntRows {N : Nat} {w : Nat → ℚ} {hit : Nat → Bool} {i : Nat} (h : i ∈ cntRows N w hit) : i < N ∧ hit i = true := by
  unfold cntRows at h
  simp only at h
  split at h
  · have := List.mem_filter.1 (List.mem_of_mem_take h)
    exact ⟨List.mem_range.1 this.1, this.2⟩
  · have := List.mem_filter.1 h
    simp only [Bool.and_eq_true] at this
    exact ⟨List.mem_range.1 this.1, this.2.2⟩

theorem sufLeaves_mem {m N : Nat} {data : Nat → Row} {hit : Nat → Bool} {accLevel : ℚ} {part suf : List Box}
    (h : sufLeaves m N data hit accLevel part = .ok suf) : suf ≠ [] ∧ ∀ b ∈ suf, b ∈ part := by
  unfold sufLeaves at h
  split at h
  · cases h
  · next hne =>
    simp only at h
    split at h
    · cases h
      refine ⟨by simp, fun b hb => ?_⟩
      rw [List.mem_singleton.1 hb]
      apply getD_mem
      have := argmaxNan_lt (l := part.map (leafAcc m N data hit)) (by simpa using hne)
      simpa using this
    · next hs =>
      cases h
      exact ⟨hs, fun b hb => (List.mem_filter.1 hb).1⟩

/-- The probability that the rule of the leaf of row `i` keeps the wanted output: the same decision probability for a classifier, the
probability of `[down, up]` for a regression. -/
def leafProb (m N : Nat) (mems : List Mem) (data : Nat → Row) (y : Nat → ℚ) (minSize maxDepth : Nat) (classifier : Bool)
    (target down up : ℚ) (i : Nat) : ℚ :=
  if classifier then (sdpRule mems (List.range m) (data i) target data y minSize maxDepth N true (0, 0)).1
  else (cdpRule mems (List.range m) (data i) (y i) down up data y minSize maxDepth N false).1

/-- `leafProb` for the arguments of the counterfactual functions. -/
def CfArgs.leafProb (a : CfArgs) (i : Nat) : ℚ :=
  Acv.leafProb a.m a.N a.mems a.data a.y a.minSize a.maxDepth a.classifier a.target a.down a.up i

theorem leafCands_rule (m N : Nat) (mems : List Mem) (data : Nat → Row) (y : Nat → ℚ) (minSize maxDepth : Nat) (classifier : Bool)
    (target down up : ℚ) (rows : List Nat) {p : ℚ × Box}
    (h : p ∈ leafCands m N mems data y minSize maxDepth classifier target down up rows) :
    ∃ i ∈ rows, ∃ yx t, p.2 = boxOf m (sdpRule mems (List.range m) (data i) yx data y minSize maxDepth N classifier t).2 ∧
      p.1 = leafProb m N mems data y minSize maxDepth classifier target down up i := by
  unfold leafCands at h
  obtain ⟨i, hi, rfl⟩ := List.mem_map.1 h
  cases classifier with
  | true => exact ⟨i, hi, target, (0, 0), rfl, rfl⟩
  | false =>
    refine ⟨i, hi, y i, (down, up), ?_, rfl⟩
    simp only [Bool.false_eq_true, if_false]
    rw [← (C48_own_target_is_sdp mems (List.range m) (data i) (y i) (down, up) data y minSize maxDepth N false).2]

theorem leafCands_fst (a : CfArgs) (rows : List Nat) : (leafCands a.m a.N a.mems a.data a.y a.minSize a.maxDepth a.classifier a.target a.down a.up
    rows).map Prod.fst = rows.map a.leafProb := by
  unfold leafCands
  rw [List.map_map]
  refine List.map_congr_left fun j _ => ?_
  unfold CfArgs.leafProb leafProb
  cases a.classifier <;> rfl

/-- **C56, all leaves.** Every leaf is enlarged by a search of its own, in the order of the leaves, and the search may use every leaf that is not
close to it: the `k`-th result is the best rule found for the `k`-th leaf, whose training rows are in that leaf or in another one. -/
theorem C56_all_leaves {m N : Nat} {data : Nat → Row} {leaves l : List Box} {nTry batch maxIter maxConv : Nat} {o : Nat → AnnealDraws}
    (h : enlargeLeaves m N data leaves nTry batch maxIter maxConv o = some l) :
    l.length = leaves.length ∧ ∀ (k : Nat) (b r : Box), leaves[k]? = some b → l[k]? = some r →
      ∃ (others : List Rule) (s : Anneal), (others.length = (leaves.filter fun c => !allclose m (ruleOf c) (ruleOf b)).length ∧
        ∀ q, q ∈ others ↔ ∃ c ∈ leaves, allclose m (ruleOf c) (ruleOf b) = false ∧ ruleOf c = q) ∧
      crAnneal m N data (ruleOf b) others nTry batch maxIter maxConv (o k) = some s ∧ r = boxOf m s.best ∧
      ∀ i < N, InClosed m (ruleOf r) (data i) → ∃ c ∈ leaves, InClosed m (ruleOf c) (data i) := by
  unfold enlargeLeaves at h
  obtain ⟨hlen, h2⟩ := mapM_get_some h
  rw [List.length_zipIdx] at hlen
  refine ⟨hlen, fun k b r hb hr => ?_⟩
  have hz : leaves.zipIdx[k]? = some (b, k) := by simp [List.getElem?_zipIdx, hb]
  have hf := h2 k _ hz
  rw [hr, Option.map_eq_some_iff] at hf
  obtain ⟨s, hs, rfl⟩ := hf
  refine ⟨_, s, ⟨by rw [List.length_map], fun q => ?_⟩, hs, rfl, fun i hi hin => ?_⟩
  · simp [List.mem_map, List.mem_filter, and_assoc]
  · have hin' : InClosed m s.best (data i) := by
      intro j hj
      have := hin j hj
      rwa [ruleOf_boxOf _ hj] at this
    rcases (C56_enlarged _ _ _ _ _ _ _ _ _ _ hs).2.1 i hi hin' with h1 | ⟨q, hq, h1⟩
    · exact ⟨b, List.mem_of_getElem? hb, h1⟩
    · obtain ⟨c, hc, rfl⟩ := List.mem_map.1 hq
      exact ⟨c, (List.mem_filter.1 hc).1, h1⟩

/-- **C57, origin of the compatible leaves.** Whatever the draws: every leaf returned is, up to rounding its bounds to the nearest
multiple of 0.01, a rule `r` that contains a training row with the wanted output (values within `±1e10`), and its intervals are not empty.
This row is in the projected leaf of the observation (`w` not 0) if a row with the wanted output is; and the probability of its leaf reaches
`pi`, or no row's does and fewer than five rows have a larger one. -/
theorem C57_leaves {a : CfArgs} {w : Nat → ℚ} {pi accLevel : ℚ} {o : Nat → AnnealDraws} {suf : List Box}
    (hdata : ∀ i < a.N, ∀ j < a.m, -10000000000 < a.data i j ∧ a.data i j ≤ 10000000000)
    (h : getCompatible a w pi accLevel o = .ok suf) :
    suf ≠ [] ∧ ∀ b ∈ suf, NonEmptyRule a.m (ruleOf b) ∧ ∃ r : Rule, ∃ i < a.N, a.hit i = true ∧ InRule a.m r (a.data i) ∧
      (∀ s < a.m, |(ruleOf b s).1 - (r s).1| ≤ 1/200 ∧ |(ruleOf b s).2 - (r s).2| ≤ 1/200) ∧
      (w i ≠ 0 ∨ ∀ j < a.N, a.hit j = true → w j = 0) ∧
      (pi ≤ a.leafProb i ∨ (∀ j < a.N, a.hit j = true → w j ≠ 0 → a.leafProb j < pi) ∧
        ((List.range a.N).filter fun j => a.hit j && decide (w j ≠ 0) && decide (a.leafProb i < a.leafProb j)).length < 5) := by
  unfold getCompatible at h
  cases he : enlargeLeaves a.m a.N a.data (pickLeaves pi (leafCands a.m a.N a.mems a.data a.y a.minSize a.maxDepth a.classifier a.target a.down
      a.up (cntRows a.N w a.hit))) a.nTry a.batch a.maxIter a.maxConv o with
  | none => rw [he] at h; cases h
  | some l =>
    rw [he] at h
    obtain ⟨hne, hmem⟩ := sufLeaves_mem h
    refine ⟨hne, fun b hb => ?_⟩
    obtain ⟨b0, hb0, rfl⟩ := mem_compatibleLeaves (hmem b hb)
    unfold enlargeLeaves at he
    obtain ⟨p, hp, hf⟩ := mapM_mem he b0 hb0
    rw [Option.map_eq_some_iff] at hf
    obtain ⟨s, hs, rfl⟩ := hf
    have hpl : p.1 ∈ pickLeaves pi (leafCands a.m a.N a.mems a.data a.y a.minSize a.maxDepth a.classifier a.target a.down
      a.up (cntRows a.N w a.hit)) := by
      have := List.mem_map_of_mem (f := Prod.fst) hp
      rwa [List.zipIdx_map_fst] at this
    obtain ⟨q, hq, hqe, hrank⟩ := pickLeaves_rank hpl
    obtain ⟨i, hi, yx, t, hr, hq1⟩ := leafCands_rule _ _ _ _ _ _ _ _ _ _ _ _ hq
    obtain ⟨hiN, hhit⟩ := mem_cntRows hi
    have hin := C25_rule_contains_instance_partial a.mems (List.range a.m) a.m yx a.data a.y a.minSize a.maxDepth a.N a.classifier t
      (hdata i hiN)
    obtain ⟨hle, -⟩ := C56_enlarged _ _ _ _ _ _ _ _ _ _ hs
    have hin' : InRule a.m s.best (a.data i) := by
      intro j hj
      have h1 := hle j hj
      rw [← hqe, hr, ruleOf_boxOf _ hj] at h1
      exact ⟨lt_of_le_of_lt h1.1 (hin j hj).1, le_trans (hin j hj).2 h1.2⟩
    have hrd : ∀ j < a.m, ruleOf (roundBox (boxOf a.m s.best)) j = (roundCents (s.best j).1, roundCents (s.best j).2) := by
      intro j hj
      rw [ruleOf_roundBox _ _ (by simpa using hj), ruleOf_boxOf _ hj]
    refine ⟨fun j hj => ?_, s.best, i, hiN, hhit, hin', fun j hj => ?_, cntRows_weight hi, ?_⟩
    · rw [hrd j hj]
      exact roundCents_mono (le_trans (le_of_lt (hin' j hj).1) (hin' j hj).2)
    · rw [hrd j hj]
      exact ⟨roundCents_near _, roundCents_near _⟩
    · have hq1 : q.1 = a.leafProb i := hq1
      rw [hq1] at hrank
      rcases hrank with hk | ⟨hk1, hk2⟩
      · exact Or.inl hk
      · by_cases hex : ∃ j < a.N, a.hit j = true ∧ w j ≠ 0
        · have hrows : cntRows a.N w a.hit = (List.range a.N).filter fun i => decide (w i ≠ 0) && a.hit i := by
            unfold cntRows
            simp only
            rw [if_neg]
            obtain ⟨j, hj, hj1, hj2⟩ := hex
            exact List.ne_nil_of_mem (List.mem_filter.2 ⟨List.mem_range.2 hj, by simp [hj1, hj2]⟩)
          have hfst := leafCands_fst a (cntRows a.N w a.hit)
          refine Or.inr ⟨fun j hj h1 h2 => ?_, ?_⟩
          · have hm : a.leafProb j ∈ (leafCands a.m a.N a.mems a.data a.y a.minSize a.maxDepth a.classifier a.target a.down a.up
                (cntRows a.N w a.hit)).map Prod.fst := by
              rw [hfst, hrows]
              exact List.mem_map_of_mem (List.mem_filter.2 ⟨List.mem_range.2 hj, by simp [h1, h2]⟩)
            obtain ⟨q', hq', he'⟩ := List.mem_map.1 hm
            rw [← he']
            exact hk1 q' hq'
          · have hc : ∀ l : List (ℚ × Box), (l.filter fun q => decide (a.leafProb i < q.1)).length =
                ((l.map Prod.fst).filter fun v => decide (a.leafProb i < v)).length := by
              intro l
              rw [List.filter_map, List.length_map]
              rfl
            rw [hc, hfst, List.filter_map, List.length_map, hrows, List.filter_filter] at hk2
            convert hk2 using 3
            funext j
            simp only [Function.comp_apply]
            rw [Bool.and_comm, Bool.and_comm (a.hit j)]
        · push Not at hex
          refine Or.inr ⟨fun j hj h1 h2 => absurd (hex j hj h1) h2, ?_⟩
          have : (List.range a.N).filter (fun j => a.hit j && decide (w j ≠ 0) && decide (a.leafProb i < a.leafProb j)) = [] := by
            rw [List.filter_eq_nil_iff]
            intro j hj
            by_cases h1 : a.hit j = true
            · simp [hex j (List.mem_range.1 hj) h1]
            · simp [h1]
          rw [this]
          decide

theorem leafAcc_none {m N : Nat} {data : Nat → Row} {hit : Nat → Bool} {b : Box} :
    leafAcc m N data hit b = none ↔ ∀ i < N, ¬ InBoxM m b (data i) := by
  unfold leafAcc npMean
  split
  · next h =>
    simp only [true_iff]
    intro i hi hc
    rw [List.map_eq_nil_iff, List.filter_eq_nil_iff] at h
    exact h i (List.mem_range.2 hi) (inClosedB_iff.2 hc)
  · next h =>
    constructor
    · intro h'; cases h'
    · intro hc
      exfalso
      apply h
      rw [List.map_eq_nil_iff, List.filter_eq_nil_iff]
      intro i hi hb
      exact hc i (List.mem_range.1 hi) (inClosedB_iff.1 hb)

theorem sum_ind_card {p : Nat → Bool} : ∀ (l : List Nat), (l.map fun i => if p i then (1 : ℚ) else 0).sum = ((l.filter p).length : ℚ) := by
  intro l
  induction l with
  | nil => simp
  | cons a l ih =>
    rw [List.map_cons, List.sum_cons, ih, List.filter_cons]
    cases p a <;> simp [add_comm]

theorem card_filter_range {N : Nat} {P : Nat → Prop} [DecidablePred P] {p : Nat → Bool} (h : ∀ i, p i = true ↔ P i) :
    ((Finset.range N).filter P).card = ((List.range N).filter p).length := by
  have e : (Finset.range N).filter P = ((List.range N).filter p).toFinset := by
    ext i
    simp [h]
  rw [e, List.toFinset_card_of_nodup (List.nodup_range.filter _)]

theorem leafAcc_some {m N : Nat} {data : Nat → Row} {hit : Nat → Bool} {b : Box} {v : ℚ} (h : leafAcc m N data hit b = some v) :
    v = wantedShare m N data (fun i => hit i = true) b := by
  unfold leafAcc npMean at h
  split at h
  · cases h
  · obtain rfl := Option.some.inj h
    unfold wantedShare
    classical
    rw [List.length_map, sum_ind_card, List.filter_filter]
    congr 2
    · have e : ∀ s : Finset Nat, (@Finset.filter Nat (fun i => hit i = true) (fun _ => Classical.propDecidable _) s) =
          s.filter fun i => hit i = true := fun s => by congr
      rw [e, Finset.filter_filter]
      refine (card_filter_range fun i => ?_).symm
      rw [Bool.and_eq_true, inClosedB_iff]
      exact and_comm
    · exact (card_filter_range fun i => inClosedB_iff).symm

/-- The claim of C57: each leaf returned reaches the accuracy level on the training set, or it is the only one returned and no
compatible leaf is more accurate. -/
def C57_accuracy_claim : Prop :=
  ∀ (m N : Nat) (data : Nat → Row) (hit : Nat → Bool) (accLevel : ℚ) (l suf : List Box),
    sufLeaves m N data hit accLevel (compatibleLeaves m l) = .ok suf →
    (∀ b ∈ suf, accLevel ≤ wantedShare m N data (fun i => hit i = true) b) ∨
    ∃ b, suf = [b] ∧ ∀ b' ∈ compatibleLeaves m l,
      wantedShare m N data (fun i => hit i = true) b' ≤ wantedShare m N data (fun i => hit i = true) b

/-- **C57, partial.** The leaves returned are exactly the compatible leaves with at least one training row whose share of wanted outputs
reaches the level; if there is none, one leaf is returned, the most accurate one provided every compatible leaf contains a training
row. Missing (false): leaves emptied by the rounding of their bounds. -/
theorem C57_accuracy_partial (m N : Nat) (data : Nat → Row) (hit : Nat → Bool) (accLevel : ℚ) (part suf : List Box)
    (h : sufLeaves m N data hit accLevel part = .ok suf) :
    (suf = part.filter (fun b => decide (b ∈ suf)) ∧ ∀ b ∈ part, b ∈ suf ↔
      (∃ i, RowIn m N data b i) ∧ accLevel ≤ wantedShare m N data (fun i => hit i = true) b) ∨
    ((∀ b ∈ part, (∃ i, RowIn m N data b i) → wantedShare m N data (fun i => hit i = true) b < accLevel) ∧
      ∃ b ∈ part, suf = [b] ∧ ((∀ b' ∈ part, ∃ i, RowIn m N data b' i) →
        ∀ b' ∈ part, wantedShare m N data (fun i => hit i = true) b' ≤ wantedShare m N data (fun i => hit i = true) b)) := by
  have hrow : ∀ b, (∃ i, RowIn m N data b i) ↔ leafAcc m N data hit b ≠ none := by
    intro b
    rw [Ne, leafAcc_none]
    push Not
    rfl
  have hkeep : ∀ b, reaches accLevel (leafAcc m N data hit b) = true ↔
      (∃ i, RowIn m N data b i) ∧ accLevel ≤ wantedShare m N data (fun i => hit i = true) b := by
    intro b
    rw [hrow]
    cases hb : leafAcc m N data hit b with
    | none => simp [reaches]
    | some a => simp [reaches, leafAcc_some hb]
  unfold sufLeaves at h
  split at h
  · cases h
  · next hne =>
    simp only at h
    split at h
    · next hs =>
      right
      rw [List.filter_eq_nil_iff] at hs
      cases h
      refine ⟨fun b hb hr => ?_, _, ?_, rfl, ?_⟩
      · by_contra hc
        exact hs b hb ((hkeep b).2 ⟨hr, not_lt.1 hc⟩)
      · apply getD_mem
        have := argmaxNan_lt (l := part.map (leafAcc m N data hit)) (by simpa using hne)
        simpa using this
      · intro hall b' hb'
        have hne' : part.map (leafAcc m N data hit) ≠ [] := by simpa using hne
        have hlt := argmaxNan_lt hne'
        obtain ⟨v, hv, hmax⟩ := argmaxNan_max hne' (fun hc => by
          obtain ⟨b, hb, he⟩ := List.mem_map.1 hc
          exact (hrow b).1 (hall b hb) he)
        generalize argmaxNan (part.map (leafAcc m N data hit)) = k at hlt hv
        rw [List.length_map] at hlt
        rw [List.getD_eq_getElem?_getD, List.getElem?_map, List.getElem?_eq_getElem hlt] at hv
        rw [List.getD_eq_getElem?_getD, List.getElem?_eq_getElem hlt, Option.getD_some]
        have hv' : leafAcc m N data hit part[k] = some v := by simpa using hv
        rw [← leafAcc_some hv']
        cases hb : leafAcc m N data hit b' with
        | none => exact absurd hb ((hrow b').1 (hall b' hb'))
        | some v' =>
          rw [← leafAcc_some hb]
          exact hmax _ (hb ▸ List.mem_map_of_mem hb')
    · left
      cases h
      constructor
      · apply List.filter_congr
        intro b hb
        rw [Bool.eq_iff_iff, decide_eq_true_eq, List.mem_filter]
        exact ⟨fun h => ⟨hb, h⟩, fun h => h.2⟩
      · intro b hb
        rw [List.mem_filter, hkeep]
        exact ⟨fun h => h.2, fun h => ⟨hb, h⟩⟩

/-- A tree with one split. -/
def splitOn (f : Nat) (thr : ℚ) : TreeArr where
  size := 3
  left := fun n => ([1, -1, -1] : List Int).getD n (-1)
  right := fun n => ([2, -1, -1] : List Int).getD n (-1)
  dflt := fun n => ([1, -1, -1] : List Int).getD n (-1)
  feature := fun n => ([(f : Int), -2, -2] : List Int).getD n (-2)
  threshold := fun n => ([thr, -2, -2] : List ℚ).getD n (-2)
  value := fun n _ => ([0, 10, 20] : List ℚ).getD n 0
  weight := fun _ => 1

theorem splitOn_isTree {f m : Nat} (hf : f < m) (thr : ℚ) : IsTree (splitOn f thr) m (.node 0 f thr (.leaf 1) (.leaf 2)) where
  root := rfl
  enc := by simp [Encodes, splitOn, BTree.id]
  nodup := by simp [BTree.ids]
  all := by intro n; simp [BTree.ids, splitOn]; omega
  vars := by simpa [BTree.vars] using hf

theorem splitOn_stored {f m : Nat} (hf : f < m) (thr : ℚ) : TreeStored m (splitOn f thr) (Mem.ofTree (splitOn f thr) leafJunk) where
  wf := ⟨_, splitOn_isTree hf thr⟩
  holds := ofTree_holds _ _
  leafChildren := by
    intro n hn h
    simp only [splitOn] at hn h ⊢
    rcases n with _ | _ | _ | n
    · simp at h
    · simp
    · simp
    · omega
  negLeaf := by
    intro n hn h
    simp only [splitOn] at hn h ⊢
    rcases n with _ | _ | _ | n
    · simp at h
    · simp
    · simp
    · omega
  before := by simp [Mem.BeforeIsPadding, Mem.ofTree, leafJunk]

/-- A training set of three rows `(0.001, 0)`, `(1, 0)`, `(1, 1)` with outputs 1, 1, 0 and a forest of one tree that splits column 0 at
0.0015; the wanted output is 1. -/
def tinyArgs : CfArgs where
  m := 2
  N := 3
  mems := [Mem.ofTree (splitOn 0 (3/2000)) leafJunk]
  data := fun i j => (([[1/1000, 0], [1, 0], [1, 1]] : List (List ℚ)).getD i []).getD j 0
  y := fun i => ([1, 1, 0] : List ℚ).getD i 0
  minSize := 1
  maxDepth := 2
  classifier := true
  target := 1
  down := 0
  up := 0
  nTry := 2
  batch := 2
  maxIter := 2
  maxConv := 5

/-- The leaf returned is `column 0 <= 0.00`, which contains no training row. -/
theorem tinyArgs_leaf : getCompatible tinyArgs (fun _ => 1) (1/2) (9/10) (fun _ => exploreDraws 1) =
    .ok [[(-10000000000, 0), (-10000000000, 10000000000)]] := by
  decide +kernel

/-- The weaker claim that every compatible leaf contains a training row. -/
def C57_row_claim : Prop :=
  ∀ (a : CfArgs) (ts : List TreeArr), List.Forall₂ (TreeStored a.m) ts a.mems →
    (∀ i < a.N, ∀ j < a.m, -10000000000 < a.data i j ∧ a.data i j ≤ 10000000000) →
    ∀ (w : Nat → ℚ) (pi accLevel : ℚ) (o : Nat → AnnealDraws) (suf : List Box), getCompatible a w pi accLevel o = .ok suf →
      ∀ b ∈ suf, ∃ i, RowIn a.m a.N a.data b i

theorem tinyArgs_range : ∀ i < tinyArgs.N, ∀ j < tinyArgs.m, -10000000000 < tinyArgs.data i j ∧ tinyArgs.data i j ≤ 10000000000 := by
  decide +kernel

theorem tinyArgs_empty : ¬ ∃ i, RowIn tinyArgs.m tinyArgs.N tinyArgs.data [(-10000000000, 0), (-10000000000, 10000000000)] i := by
  rintro ⟨i, hi, h⟩
  have key : ∀ i < tinyArgs.N, ¬ tinyArgs.data i 0 ≤ 0 := by decide +kernel
  exact key i hi (h 0 (by decide)).2

/-- **C57 is false**: the rounding of the bounds to two decimals empties the leaf `column 0 <= 0.0015`; its undefined accuracy (NaN) then
wins `np.argmax`, although another compatible leaf contains all three rows. -/
theorem C57_row_false : ¬ C57_row_claim := by
  intro h
  exact tinyArgs_empty (h tinyArgs [splitOn 0 (3/2000)] (.cons (splitOn_stored (by decide) _) .nil) tinyArgs_range _ _ _ _ _ tinyArgs_leaf _
    (List.mem_singleton.2 rfl))

theorem wantedShare_empty {m N : Nat} {data : Nat → Row} {good : Nat → Prop} {b : Box} (h : ¬ ∃ i, RowIn m N data b i) :
    wantedShare m N data good b = 0 := by
  classical
  unfold wantedShare
  have e : ((Finset.range N).filter fun i => InBoxM m b (data i)) = ∅ := by
    rw [Finset.filter_eq_empty_iff]
    exact fun i hi hc => h ⟨i, Finset.mem_range.1 hi, hc⟩
  rw [e]
  simp

/-- **C57, the accuracy claim is false** for the same reason: the leaf returned has no training row, another one reaches 2/3. -/
theorem C57_accuracy_false : ¬ C57_accuracy_claim := by
  intro h
  have hs : sufLeaves 2 3 tinyArgs.data tinyArgs.hit (9/10) (compatibleLeaves 2 [[(-10000000000, 3/2000), (-10000000000, 10000000000)],
      [(3/2000, 10000000000), (-10000000000, 10000000000)]]) = .ok [[(-10000000000, 0), (-10000000000, 10000000000)]] := by decide +kernel
  have h0 := wantedShare_empty (good := fun i => tinyArgs.hit i = true) tinyArgs_empty
  rcases h _ _ _ _ _ _ _ hs with h1 | ⟨b, hb, h1⟩
  · have := h1 _ (List.mem_singleton.2 rfl)
    rw [show (2 : Nat) = tinyArgs.m from rfl, show (3 : Nat) = tinyArgs.N from rfl, h0] at this
    norm_num at this
  · have hb' := List.singleton_inj.1 hb
    subst hb'
    have h2 := h1 [(0, 10000000000), (-10000000000, 10000000000)] (by decide +kernel)
    rw [show (2 : Nat) = tinyArgs.m from rfl, show (3 : Nat) = tinyArgs.N from rfl, h0] at h2
    rw [← leafAcc_some (v := 2/3) (by decide +kernel)] at h2
    norm_num at h2

/-! ## C47: selection of the counterfactual rules -/

/-- **C47, selection.** For every list of conditions and every probability function: an error exactly when the list is empty; otherwise each
rule is returned with its own probability and weights; the rules returned are those that reach `pi`, in order, or, if none does, one rule
of largest probability. -/
theorem C47_selection {α : Type} (prob : Rule → ℚ × α) (pi : ℚ) (conds : List Rule) :
    ((∃ e, selectCf prob pi conds = .error e) ↔ conds = []) ∧
    ∀ l, selectCf prob pi conds = .ok l →
      (∀ p ∈ l, p.1 ∈ conds ∧ p.2 = prob p.1) ∧
      ((∃ c ∈ conds, pi ≤ (prob c).1) → (∀ c ∈ conds, (∃ p ∈ l, p.1 = c) ↔ pi ≤ (prob c).1) ∧ (l.map Prod.fst).Sublist conds) ∧
      ((¬ ∃ c ∈ conds, pi ≤ (prob c).1) → ∃ p, l = [p] ∧ ∀ c ∈ conds, (prob c).1 ≤ p.2.1) := by
  have hnil : (conds.filter fun c => decide (pi ≤ (prob c).1)) ≠ [] ↔ ∃ c ∈ conds, pi ≤ (prob c).1 := by
    rw [Ne, List.filter_eq_nil_iff]
    push Not
    simp
  by_cases h1 : (conds.filter fun c => decide (pi ≤ (prob c).1)) ≠ []
  · have e : selectCf prob pi conds = .ok ((conds.filter fun c => decide (pi ≤ (prob c).1)).map fun c => (c, prob c)) := if_pos h1
    rw [e]
    constructor
    · constructor
      · rintro ⟨_, h⟩; cases h
      · rintro rfl; exact absurd rfl h1
    · intro l hl
      cases hl
      refine ⟨?_, ?_, fun hc => absurd (hnil.1 h1) hc⟩
      · intro p hp
        obtain ⟨c, hc, rfl⟩ := List.mem_map.1 hp
        exact ⟨(List.mem_filter.1 hc).1, rfl⟩
      · intro _
        constructor
        · intro c hc
          simp only [List.mem_map, List.mem_filter, decide_eq_true_eq]
          constructor
          · rintro ⟨_, ⟨c', hc', rfl⟩, rfl⟩
            exact hc'.2
          · exact fun h => ⟨_, ⟨c, ⟨hc, h⟩, rfl⟩, rfl⟩
        · rw [List.map_map]
          have : (Prod.fst ∘ fun c => (c, prob c)) = (id : Rule → Rule) := rfl
          rw [this, List.map_id]
          exact List.filter_sublist
  · by_cases h2 : conds = []
    · subst h2
      have e : selectCf prob pi [] = .error "ValueError" := rfl
      rw [e]
      exact ⟨⟨fun _ => rfl, fun _ => ⟨_, rfl⟩⟩, fun l h => by cases h⟩
    · have e : selectCf prob pi conds = .ok [(conds.getD (argmaxQ (conds.map fun c => (prob c).1)) Rule.init,
          prob (conds.getD (argmaxQ (conds.map fun c => (prob c).1)) Rule.init))] := by
        unfold selectCf
        simp only
        rw [if_neg h1, if_neg h2]
      obtain ⟨hm, hmax⟩ := argmaxQ_spec (f := fun c => (prob c).1) h2 Rule.init
      rw [e]
      constructor
      · exact ⟨fun ⟨_, h⟩ => (by cases h), fun h => absurd h h2⟩
      · intro l hl
        cases hl
        refine ⟨?_, fun hc => absurd (hnil.2 hc) h1, fun _ => ⟨_, rfl, hmax⟩⟩
        intro p hp
        rw [List.mem_singleton.1 hp]
        exact ⟨hm, rfl⟩

example : (selectCf (fun c => ((c 0).1, ())) 2 [fun _ => (1, 1), fun _ => (3, 3), fun _ => (2, 2)]).map (fun l => l.map fun p => p.2.1) =
    .ok [3, 2] := by decide +kernel
example : (selectCf (fun c => ((c 0).1, ())) 4 [fun _ => (1, 1), fun _ => (3, 3), fun _ => (2, 2)]).map (fun l => l.map fun p => p.2.1) =
    .ok [3] := by decide +kernel

theorem mem_pruneCf {α : Type} {m : Nat} {l : List (Rule × ℚ × α)} {p : Rule × ℚ × α} (h : p ∈ pruneCf m l) : p ∈ l := by
  unfold pruneCf npDelete at h
  obtain ⟨q, hq, rfl⟩ := List.mem_map.1 h
  have := List.mem_map_of_mem (f := Prod.fst) (List.mem_filter.1 hq).1
  rwa [List.zipIdx_map_fst] at this

theorem pruneCf_sublist {α : Type} (m : Nat) (l : List (Rule × ℚ × α)) : (pruneCf m l).Sublist l := by
  unfold pruneCf npDelete
  have := (List.filter_sublist (l := l.zipIdx) (p := fun p => decide (p.2 ∉ removeList m (l.map fun p => boxOf m p.1)))).map Prod.fst
  rwa [List.zipIdx_map_fst] at this

/-- **C47, local rules.** Whatever the draws, for every forest, training set and observation: each counterfactual rule returned comes with
the conditional probability of the wanted output and the weights computed for that very rule; it fixes `x` on the variables outside the
divergent set `S*`; and either every rule returned reaches `pi`, or at most one rule is returned. -/
theorem C47_local {a : CfArgs} {sStar sBar : List Nat} {x : Row} {w : Nat → ℚ} {accLevel pi : ℚ} {o : Nat → AnnealDraws}
    {l : List (Rule × ℚ × (Nat → ℚ))} (h : localCf a sStar sBar x w accLevel pi o = .ok l) :
    (∀ p ∈ l, p.2 = cdpCond a.mems sBar x p.1 a.target a.down a.up a.data a.y a.minSize a.maxDepth a.N a.classifier ∧
      (∀ s ∈ sBar, s ∉ sStar → p.1 s = (x s, x s)) ∧ ∀ s, s ∉ sBar → s ∉ sStar → p.1 s = (-10000000000, 10000000000)) ∧
    ((∀ p ∈ l, pi ≤ p.2.1) ∨ l.length ≤ 1) := by
  unfold localCf at h
  cases hg : getCompatible a w pi accLevel o with
  | error e => rw [hg] at h; cases h
  | ok suf =>
    rw [hg] at h
    simp only at h
    cases hr : returnCf a sStar sBar x pi suf with
    | error e => rw [hr] at h; cases h
    | ok l' =>
      rw [hr] at h
      cases h
      obtain ⟨h1, h2, h3⟩ := (C47_selection (cfProb a sBar x) pi (suf.map (cfCond sStar sBar x))).2 l' hr
      constructor
      · intro p hp
        obtain ⟨hc, he⟩ := h1 p (mem_pruneCf hp)
        obtain ⟨leaf, _, hl⟩ := List.mem_map.1 hc
        refine ⟨he, fun s hs hns => ?_, fun s hs hns => ?_⟩
        · rw [← hl]
          unfold cfCond
          rw [if_neg hns, if_pos hs]
        · rw [← hl]
          unfold cfCond
          rw [if_neg hns, if_neg hs]
      · by_cases hex : ∃ c ∈ suf.map (cfCond sStar sBar x), pi ≤ (cfProb a sBar x c).1
        · left
          intro p hp
          obtain ⟨hc, he⟩ := h1 p (mem_pruneCf hp)
          rw [he]
          exact ((h2 hex).1 _ hc).1 ⟨p, mem_pruneCf hp, rfl⟩
        · right
          obtain ⟨p, rfl, -⟩ := h3 hex
          exact (pruneCf_sublist _ _).length_le

/-- **C47, regional rules.** The same for a rule `cond` of a region: the counterfactual rules keep `cond` outside `S*`. -/
theorem C47_regional {a : CfArgs} {sStar : List Nat} {x : Row} {cond : Rule} {w : Nat → ℚ} {accLevel pi : ℚ} {o : Nat → AnnealDraws}
    {l : List (Rule × ℚ × (Nat → ℚ))} (h : regionalCf a sStar x cond w accLevel pi o = .ok l) :
    (∀ p ∈ l, p.2 = cdpCond a.mems [] x p.1 a.target a.down a.up a.data a.y a.minSize a.maxDepth a.N a.classifier ∧
      ∀ s, s ∉ sStar → p.1 s = cond s) ∧
    ((∀ p ∈ l, pi ≤ p.2.1) ∨ l.length ≤ 1) := by
  unfold regionalCf at h
  cases hg : getCompatible a w pi accLevel o with
  | error e => rw [hg] at h; cases h
  | ok suf =>
    rw [hg] at h
    simp only at h
    cases hr : returnGe a sStar x cond pi suf with
    | error e => rw [hr] at h; cases h
    | ok l' =>
      rw [hr] at h
      cases h
      obtain ⟨h1, h2, h3⟩ := (C47_selection (geProb a x) pi (suf.map (geCond sStar cond))).2 l' hr
      constructor
      · intro p hp
        obtain ⟨hc, he⟩ := h1 p (mem_pruneCf hp)
        obtain ⟨leaf, _, hl⟩ := List.mem_map.1 hc
        refine ⟨he, fun s hns => ?_⟩
        rw [← hl]
        exact if_neg hns
      · by_cases hex : ∃ c ∈ suf.map (geCond sStar cond), pi ≤ (geProb a x c).1
        · left
          intro p hp
          obtain ⟨hc, he⟩ := h1 p (mem_pruneCf hp)
          rw [he]
          exact ((h2 hex).1 _ hc).1 ⟨p, mem_pruneCf hp, rfl⟩
        · right
          obtain ⟨p, rfl, -⟩ := h3 hex
          exact (pruneCf_sublist _ _).length_le

/-- What C47 asks of `CR.run_local_counterfactual_rules`: the rules returned reach the level `pi_level` of the call, or there is at most
one. -/
def C47_run_claim : Prop :=
  ∀ (a : CfArgs) (sStar sBar : List Nat) (x : Row) (w : Nat → ℚ) (accLevel pi : ℚ) (o : Nat → AnnealDraws)
    (l : List (Rule × ℚ × (Nat → ℚ))), runLocal a sStar sBar x w accLevel pi o = .ok l → (∀ p ∈ l, pi ≤ p.2.1) ∨ l.length ≤ 1

/-- **C47, partial**: it does for a classifier; for a regression the level that counts is `acc_level`. -/
theorem C47_run_partial {a : CfArgs} {sStar sBar : List Nat} {x : Row} {w : Nat → ℚ} {accLevel pi : ℚ} {o : Nat → AnnealDraws}
    {l : List (Rule × ℚ × (Nat → ℚ))} (h : runLocal a sStar sBar x w accLevel pi o = .ok l) :
    (a.classifier = true → (∀ p ∈ l, pi ≤ p.2.1) ∨ l.length ≤ 1) ∧
    (a.classifier = false → (∀ p ∈ l, accLevel ≤ p.2.1) ∨ l.length ≤ 1) := by
  unfold runLocal at h
  constructor
  · intro hc
    rw [hc, if_pos rfl] at h
    exact (C47_local h).2
  · intro hc
    rw [hc, if_neg (by decide)] at h
    exact (C47_local h).2

/-- Four rows with column 0 equal to 0, 0, 2, 2 and outputs 1, 5, 1, 5; a tree that splits column 0 at 1; wanted outputs in `[1, 2]`. -/
def regArgs : CfArgs where
  m := 2
  N := 4
  mems := [Mem.ofTree (splitOn 0 1) leafJunk]
  data := fun i j => (([[0, 0], [0, 1], [2, 0], [2, 1]] : List (List ℚ)).getD i []).getD j 0
  y := fun i => ([1, 5, 1, 5] : List ℚ).getD i 0
  minSize := 1
  maxDepth := 2
  classifier := false
  target := 0
  down := 1
  up := 2
  nTry := 2
  batch := 2
  maxIter := 2
  maxConv := 5

/-- **C47 is false of a regression**: `run_local_counterfactual_rules` passes `acc_level` in the place of `pi_level`; with
`pi_level = 1` two rules of probability 1/2 are returned. -/
theorem C47_regression_level_false : ¬ C47_run_claim := by
  intro h
  have e : ((runLocal regArgs [0] [1] (fun _ => 0) (fun _ => 1) (1/4) 1 (fun _ => exploreDraws 1)).map fun l => l.map fun p => p.2.1) =
      .ok [1/2, 1/2] := by decide +kernel
  cases hl : runLocal regArgs [0] [1] (fun _ => 0) (fun _ => 1) (1/4) 1 (fun _ => exploreDraws 1) with
  | error e' => rw [hl] at e; cases e
  | ok l =>
    rw [hl] at e
    have e' : (l.map fun p => p.2.1) = [1/2, 1/2] := Except.ok.inj e
    rcases h _ _ _ _ _ _ _ _ _ hl with h1 | h1
    · have hm : (1/2 : ℚ) ∈ l.map fun p => p.2.1 := by rw [e']; simp
      obtain ⟨p, hp, he⟩ := List.mem_map.1 hm
      have := h1 p hp
      rw [he] at this
      norm_num at this
    · have hl2 : (l.map fun p => p.2.1).length = 2 := by rw [e']; rfl
      rw [List.length_map] at hl2
      omega

/-! ## C55: a rule is returned -/

/-- The claim of C55: when the search ends without error some counterfactual rule is returned. -/
def C55_claim : Prop :=
  ∀ (a : CfArgs) (ts : List TreeArr), List.Forall₂ (TreeStored a.m) ts a.mems →
  ∀ (sStar sBar : List Nat) (x : Row) (w : Nat → ℚ) (accLevel pi : ℚ) (o : Nat → AnnealDraws)
    (l : List (Rule × ℚ × (Nat → ℚ))), (∀ s, s ∈ sBar ↔ s < a.m ∧ s ∉ sStar) →
    runLocal a sStar sBar x w accLevel pi o = .ok l → l ≠ []

/-- Four rows with column 1 equal to -1, -1, 1, 1, all with the wanted output 1, and a tree that splits column 1 at 0. -/
def dupArgs : CfArgs where
  m := 2
  N := 4
  mems := [Mem.ofTree (splitOn 1 0) leafJunk]
  data := fun i j => (([[0, -1], [1, -1], [0, 1], [1, 1]] : List (List ℚ)).getD i []).getD j 0
  y := fun _ => 1
  minSize := 1
  maxDepth := 2
  classifier := true
  target := 1
  down := 0
  up := 0
  nTry := 2
  batch := 2
  maxIter := 2
  maxConv := 5

/-- **C55 is false**: two compatible leaves that differ only outside `S*` give the same condition twice, and the removal of nested rules
deletes both. Both had probability 1. -/
theorem C55_vanishes : ¬ C55_claim := by
  intro h
  have e : ((runLocal dupArgs [0] [1] (fun _ => 0) (fun _ => 1) (1/2) (1/2) (fun _ => exploreDraws 1)).map fun l => l.length) =
      .ok 0 := by decide +kernel
  cases hl : runLocal dupArgs [0] [1] (fun _ => 0) (fun _ => 1) (1/2) (1/2) (fun _ => exploreDraws 1) with
  | error e' => rw [hl] at e; cases e
  | ok l =>
    rw [hl] at e
    refine h dupArgs [splitOn 1 0] (.cons (splitOn_stored (by decide) _) .nil) [0] [1] _ _ _ _ _ l ?_ hl
      (List.length_eq_zero_iff.1 (Except.ok.inj e))
    intro s
    simp only [List.mem_singleton, dupArgs]
    omega

example : (returnCf dupArgs [0] [1] (fun _ => 0) (1/2) [[(-10000000000, 10000000000), (-10000000000, 0)],
    [(-10000000000, 10000000000), (0, 10000000000)]]).map (fun l => l.map fun p => p.2.1) = .ok [1, 1] := by decide +kernel

/-- **C55, partial**: if the selected rules are pairwise distinct, each of them contains a rule that is returned; in particular some rule
is returned. Missing (false): repeated rules. -/
theorem C55_partial {α : Type} (m : Nat) (l : List (Rule × ℚ × α)) (hd : (l.map fun p => boxOf m p.1).Nodup) :
    (∀ p ∈ l, ∃ q ∈ pruneCf m l, RuleLe m q.1 p.1) ∧ (l ≠ [] → pruneCf m l ≠ []) := by
  have key : ∀ p ∈ l, ∃ q ∈ pruneCf m l, RuleLe m q.1 p.1 := by
    cases l with
    | nil => simp
    | cons p0 l0 =>
      generalize hl : p0 :: l0 = l at hd ⊢
      set ra := l.map fun p => boxOf m p.1 with hra
      have hlen : ra.length = l.length := by simp [hra]
      have hgl : ∀ i < l.length, (ra.getD i []).length = m := by
        intro i hi
        rw [hra, List.getD_eq_getElem?_getD, List.getElem?_map, List.getElem?_eq_getElem hi]
        simp
      have hinj : ∀ i < l.length, ∀ j < l.length, ra.getD i [] = ra.getD j [] → i = j := by
        intro i hi j hj he
        rw [List.getD_eq_getElem?_getD, List.getD_eq_getElem?_getD, List.getElem?_eq_getElem (by omega),
          List.getElem?_eq_getElem (by omega), Option.getD_some, Option.getD_some] at he
        exact (List.Nodup.getElem_inj_iff hd).1 he
      have hmain : ∀ n j, j < l.length →
          ((Finset.range l.length).filter fun k => boxIn m (ra.getD k []) (ra.getD j []) = true).card = n →
          ∃ i < l.length, i ∉ removeList m ra ∧ BoxIncl m (ra.getD i []) (ra.getD j []) := by
        intro n
        induction n using Nat.strong_induction_on with
        | _ n ih =>
          intro j hj hn
          by_cases hk : j ∈ removeList m ra
          · obtain ⟨i, hi, hne, hincl⟩ := (mem_removeList (by omega)).1 hk
            rw [hlen] at hi
            obtain ⟨i', hi', hk', hin'⟩ := ih _ (by
              rw [← hn]
              apply Finset.card_lt_card
              refine Finset.ssubset_iff_of_subset ?_ |>.2 ⟨j, ?_, ?_⟩
              · intro k hk
                rw [Finset.mem_filter, boxIn_iff] at hk ⊢
                exact ⟨hk.1, hk.2.trans hincl⟩
              · rw [Finset.mem_filter, boxIn_iff]
                exact ⟨Finset.mem_range.2 hj, BoxIncl.refl _ _⟩
              · rw [Finset.mem_filter, boxIn_iff]
                rintro ⟨-, hc⟩
                exact hne (hinj i hi j hj (BoxIncl.antisymm (hgl i hi) (hgl j hj) hincl hc))) i hi rfl
            exact ⟨i', hi', hk', hin'.trans hincl⟩
          · exact ⟨j, hj, hk, BoxIncl.refl _ _⟩
      intro p hp
      obtain ⟨j, hj, rfl⟩ := List.getElem_of_mem hp
      obtain ⟨i, hi, hk, hincl⟩ := hmain _ j hj rfl
      refine ⟨l[i], ?_, ?_⟩
      · unfold pruneCf
        rw [npDelete_eq p0, List.mem_map]
        refine ⟨i, ?_, ?_⟩
        · rw [List.mem_filter]
          exact ⟨List.mem_range.2 hi, by simpa using hk⟩
        · rw [List.getD_eq_getElem?_getD, List.getElem?_eq_getElem hi, Option.getD_some]
      · intro s hs
        have := hincl s hs
        rw [hra] at this
        simpa [List.getD_eq_getElem?_getD, List.getElem?_map, List.getElem?_eq_getElem hi, List.getElem?_eq_getElem hj, boxOf, hs] using this
  refine ⟨key, fun hne => ?_⟩
  obtain ⟨p, hp⟩ := List.exists_mem_of_ne_nil _ hne
  obtain ⟨q, hq, -⟩ := key p hp
  exact List.ne_nil_of_mem hq

/-! ## C40, from the rules to the samples -/

theorem bestCf_spec {α : Type} {l : List (Rule × ℚ × α)} {c : Rule} (h : bestCf l = some c) :
    ∃ p ∈ l, p.1 = c ∧ ∀ q ∈ l, q.2.1 ≤ p.2.1 := by
  unfold bestCf at h
  split at h
  · cases h
  · next hne =>
    obtain ⟨p, hp, rfl⟩ := Option.map_eq_some_iff.1 h
    obtain ⟨hm, hmax⟩ := argmaxQ_spec (f := fun p : Rule × ℚ × α => p.2.1) hne p
    rw [List.getD_eq_getElem?_getD, hp, Option.getD_some] at hm hmax
    exact ⟨p, hm, rfl, hmax⟩

/-- **C40, end to end.** For every forest, training set with values within `±1e10`, observation and draws: the sample that
`run_sampling_local_counterfactuals` returns for the rules of `run_local_counterfactual_rules` satisfies *every* condition of the returned
rule of largest probability, and equals `x` outside `S*`. -/
theorem C40_end_to_end {a : CfArgs} {sStar sBar : List Nat} {x : Row} {w : Nat → ℚ} {accLevel pi : ℚ} {o : Nat → AnnealDraws}
    {l : List (Rule × ℚ × (Nat → ℚ))} (hdata : ∀ i < a.N, ∀ j < a.m, -10000000000 < a.data i j ∧ a.data i j ≤ 10000000000)
    (hS : ∀ s ∈ sStar, s < a.m) (hbar : ∀ s, s ∈ sBar ↔ s < a.m ∧ s ∉ sStar)
    (h : runLocal a sStar sBar x w accLevel pi o = .ok l) (score : Row → ℚ) (batch maxIter : Nat) (first : Nat → Nat)
    (draws : Nat → Nat → Nat → Nat) (accept : Nat → Bool) {s : Sample}
    (hs : runSampling a.N a.data score l sStar x batch maxIter first draws accept = some (some s)) :
    (∃ p ∈ l, (∀ q ∈ l, q.2.1 ≤ p.2.1) ∧ InClosed a.m p.1 s.best) ∧ ∀ j, j ∉ sStar → s.best j = x j := by
  unfold runSampling at hs
  cases hb : bestCf l with
  | none => rw [hb] at hs; cases hs
  | some c =>
    rw [hb] at hs
    obtain ⟨s', hs', he⟩ := Option.map_eq_some_iff.1 hs
    obtain rfl := Option.some.inj he
    obtain ⟨p, hp, rfl, hmax⟩ := bestCf_spec hb
    unfold runLocal localCf at h
    generalize (if a.classifier = true then pi else accLevel) = lev at h
    cases hg : getCompatible a w lev accLevel o with
    | error e => rw [hg] at h; cases h
    | ok suf =>
      rw [hg] at h
      simp only at h
      cases hr : returnCf a sStar sBar x lev suf with
      | error e => rw [hr] at h; cases h
      | ok l' =>
        rw [hr] at h
        cases h
        obtain ⟨h1, -⟩ := (C47_selection (cfProb a sBar x) lev (suf.map (cfCond sStar sBar x))).2 l' hr
        obtain ⟨hc, -⟩ := h1 p (mem_pruneCf hp)
        obtain ⟨leaf, hleaf, hl⟩ := List.mem_map.1 hc
        have hfull := (C57_leaves hdata hg).2 leaf hleaf
        have hin : ∀ j ∈ sStar, p.1 j = ruleOf leaf j := fun j hj => by
          rw [← hl]
          exact if_pos hj
        obtain ⟨h3, h4⟩ := C40_inside a.N a.data score (fun j hj => by
          rw [hin j hj]
          exact hfull.1 j (hS j hj)) x batch maxIter 10 first draws accept hs'
        refine ⟨⟨p, hp, hmax, fun j hj => ?_⟩, h4⟩
        by_cases hj' : j ∈ sStar
        · exact h3 j hj'
        · have e : p.1 j = (x j, x j) := by
            rw [← hl]
            unfold cfCond
            rw [if_neg hj', if_pos ((hbar j).2 ⟨hj, hj'⟩)]
          rw [e, h4 j hj']
          exact ⟨le_rfl, le_rfl⟩

example : ∃ l, runLocal regArgs [0] [1] (fun _ => 0) (fun _ => 1) (1/4) 1 (fun _ => exploreDraws 1) = .ok l ∧
    (runSampling regArgs.N regArgs.data (fun z => z 0) l [0] (fun _ => 0) 2 3 (fun _ => 0) (fun i b _ => i + b) (fun _ => true)).isSome := by
  have e : ((runLocal regArgs [0] [1] (fun _ => 0) (fun _ => 1) (1/4) 1 (fun _ => exploreDraws 1)).map fun l =>
    ((runSampling regArgs.N regArgs.data (fun z => z 0) l [0] (fun _ => 0) 2 3 (fun _ => 0) (fun i b _ => i + b) (fun _ => true)).isSome)) =
      .ok true := by decide +kernel
  cases hl : runLocal regArgs [0] [1] (fun _ => 0) (fun _ => 1) (1/4) 1 (fun _ => exploreDraws 1) with
  | error e' => rw [hl] at e; cases e
  | ok l =>
    rw [hl] at e
    exact ⟨l, rfl, Except.ok.inj e⟩

/-! ## C58: coverage of the regional rules -/

/-- What C58 asks: `coverage_regional` is below 1 as soon as some test observation lies in a region without counterfactual rule. -/
def C58_claim : Prop :=
  ∀ (maxObs : Nat) (rules : List (Bool × Nat)), 0 < maxObs → (∃ r ∈ rules, r.1 = false ∧ 0 < r.2) → (regionalCounts maxObs rules).2 ≠ 0 →
    ((regionalCounts maxObs rules).1 : ℚ) / (regionalCounts maxObs rules).2 < 1

theorem regionalCounts_eq (maxObs : Nat) (rules : List (Bool × Nat)) : (regionalCounts maxObs rules).1 = (regionalCounts maxObs rules).2 := by
  unfold regionalCounts
  have : ∀ (l : List (Bool × Nat)) (a : Nat × Nat), a.1 = a.2 → (l.foldl (fun a r => if r.1 then
    (a.1 + (if 0 < r.2 then min r.2 maxObs else 0), a.2 + (if r.2 ≤ maxObs then r.2 else maxObs)) else a) a).1 =
    (l.foldl (fun a r => if r.1 then
    (a.1 + (if 0 < r.2 then min r.2 maxObs else 0), a.2 + (if r.2 ≤ maxObs then r.2 else maxObs)) else a) a).2 := by
    intro l
    induction l with
    | nil => exact fun a h => h
    | cons r l ih =>
      intro a h
      rw [List.foldl_cons]
      apply ih
      split
      · simp only [h]
        split_ifs <;> omega
      · exact h
  exact this rules (0, 0) rfl

/-- **C58, partial**: the reported regional coverage is 1 whatever the rules and the observations (or the division by zero of no
observation). -/
theorem C58_coverage_partial (maxObs : Nat) (rules : List (Bool × Nat)) (h : (regionalCounts maxObs rules).2 ≠ 0) :
    ((regionalCounts maxObs rules).1 : ℚ) / (regionalCounts maxObs rules).2 = 1 := by
  rw [regionalCounts_eq]
  exact div_self (by exact_mod_cast h)

/-- **C58 is false**: the observations of the regions without counterfactual rule are left out of the denominator. -/
theorem C58_coverage_false : ¬ C58_claim := by
  intro h
  have := h 2 [(true, 1), (false, 5)] (by decide) ⟨(false, 5), by simp, rfl, by decide⟩ (by decide)
  rw [C58_coverage_partial 2 _ (by decide)] at this
  exact lt_irrefl _ this

end Acv
