import Verif.Props.CrWorkflow
import Verif.Props.Divergent

/-!
# C112: what the stages of a `CR` object compute

`C101` says which results belong together; this file says what they are when the stages are those of the code.
-/

namespace Acv

/-- The recorded columns and their complement, as the list of `get_active_null_coalition_list`. -/
theorem crSplit_spec {m : Nat} {b : Best} {S : List Nat} (h : b.cols = S.map ((↑) : Nat → Int)) :
    crSplit m b = (S, otherCols m S) := by
  have e : (List.range b.len).map b.star = S.map ((↑) : Nat → Int) := h
  unfold crSplit activeNull otherCols
  simp only [e]
  refine Prod.ext ?_ ?_
  · simp only [List.map_map]
    have : (Int.toNat ∘ ((↑) : Nat → Int)) = id := by funext n; simp
    rw [this, List.map_id]
  · simp only
    rw [List.filter_map, List.map_map]
    have : (Int.toNat ∘ ((↑) : Nat → Int)) = id := by funext n; simp
    rw [this, List.map_id]
    apply List.filter_congr
    intro j _
    rw [Bool.eq_iff_iff]
    simp only [Function.comp, decide_eq_true_eq, List.mem_map, Nat.cast_inj, not_exists, not_and]
    exact ⟨fun h hj => h j hj rfl, fun h x hx e => h (e ▸ hx)⟩

/-- The result of the first stage: for each observation its set, the complement, and the weights of the training rows. -/
theorem crLocalSets_spec {a : CfArgs} {order : List Nat} (h : SearchArgs a.m [[]] (rfSpace a.m order)) (x : List Row) {p : CrParams}
    (h0 : 0 < p.pi) (h1 : p.pi ≤ 1) : ∃ ss, crLocalSets a order x p = .ok ss ∧ ss.length = x.length ∧
      ∀ (i : Nat) xi, x[i]? = some xi → ∃ S v, S.Nodup ∧ (∀ j ∈ S, j < a.m) ∧
        ss[i]? = some (S, otherCols a.m S, (cdpWeights a.mems (otherCols a.m S) xi (p.target i) (p.down i) (p.up i) a.data a.y a.minSize
          a.maxDepth a.N a.classifier).2) ∧
        (p.pi ≤ v → S.length ≠ a.m → DivergentReport (searchPlayers [[]] (rfSpace a.m order)) a.m 1 (fun T => cdpRf a.mems T xi (p.target i)
          (p.down i) (p.up i) a.data a.y a.minSize a.maxDepth a.N a.classifier) p.pi S v) ∧
        (v < p.pi → p.stop = false → 0 < p.half → ∀ k S', 1 ≤ k → Candidate (searchPlayers [[]] (rfSpace a.m order)) k S' →
          cdpRf a.mems (otherCols a.m S') xi (p.target i) (p.down i) (p.up i) a.data a.y a.minSize a.maxDepth a.N a.classifier < p.pi) := by
  have hb : ∃ st, importanceCdpRf (crCallOf a x p) p.down p.up x.length a.m order [[]] p.pi 1 p.stop p.half = some st := by
    obtain ⟨st, e, _⟩ := C76_counterfactual_partial h (crCallOf a x p) p.down p.up x.length h0 h1 1 p.stop p.half
    exact ⟨st, e⟩
  obtain ⟨st, e⟩ := hb
  obtain ⟨st', e', hrep⟩ := C76_counterfactual_partial h (crCallOf a x p) p.down p.up x.length h0 h1 1 p.stop p.half
  rw [e] at e'; cases e'
  unfold crLocalSets
  rw [e]
  refine ⟨_, rfl, by simp, fun i xi hi => ?_⟩
  have hlt : i < x.length := (List.getElem?_eq_some_iff.1 hi).1
  have hX : (crCallOf a x p).X i = xi := by
    change x.getD i _ = xi
    rw [List.getD_eq_getElem?_getD, hi]; rfl
  have hcols : ∃ S : List Nat, (st.best i).cols = S.map (↑) ∧ S.Nodup ∧ ∀ c ∈ S, c < a.m := by
    have e2 := e
    unfold importanceCdpRf at e2
    rw [globalBarRf_eq h] at e2
    obtain ⟨s2, e3, e4⟩ := importanceSdpRf_eq h (fun i S => (crCallOf a x p).cdp p.down p.up i (otherCols a.m S)) x.length p.pi 1 p.stop p.half
    rw [e2] at e3; cases e3
    rw [e4]
    exact search_cols finOk_id (valsOk_mask _ x.length) a.m p.pi p.stop p.half (playersOk h) 1 _ hlt
  obtain ⟨S, hS1, hS2, hS3⟩ := hcols
  refine ⟨S, (st.best i).sdp, hS2, hS3, ?_, ?_, ?_⟩
  · rw [List.getElem?_map, List.getElem?_zipIdx, hi]
    simp only [Option.map_some, Nat.zero_add]
    rw [crSplit_spec hS1]
  · intro hv hne
    obtain ⟨S', b1, _, b3⟩ := hrep i hlt hv
    have : S' = S := by
      rw [hS1] at b1
      exact (List.map_injective_iff.2 (fun a b hab => by exact_mod_cast hab) b1).symm
    subst this
    have := b3 hne
    rw [hX] at this
    exact this
  · intro hv hs hh k S' hk hS'
    unfold importanceCdpRf at e
    rw [globalBarRf_eq h, hs] at e
    obtain ⟨s2, e3, hnf⟩ := C29_not_found h (fun i S => (crCallOf a x p).cdp p.down p.up i (otherCols a.m S)) x.length h0 h1 1 false p.half hh
    rw [e] at e3; cases e3
    have := hnf i hlt hv k S' hk hS' (Or.inl rfl)
    simp only [RfCall.cdp, hX] at this
    exact this

/-- A sample that is returned is one of the annealing search. -/
theorem crSample_ok {a : CfArgs} {score : Row → ℚ} {p : CrParams} {i k : Nat} {z : Row} {s : CrSet} {c : CrRules} {d : Sample}
    (h : crSample a score p i k z s c = .ok d) :
    runSampling a.N a.data score c s.1 z p.batch p.maxIter (p.first i k) (p.rand i k) (p.accept i k) = some (some d) := by
  unfold crSample at h
  split at h
  · rename_i d2 hrun
    have : d2 = d := by injection h
    rw [← this, hrun]
  · cases h

/-- The report of a region: the value is the probability of the wanted output with the columns of the set free and the others in the region;
no smaller set reaches `pi`, no set of the same size does better. -/
def RegionReport (players : List (List Nat)) (v : List Nat → ℚ) (pi : ℚ) (S : List Nat) (value : ℚ) : Prop :=
  ∃ k, 1 ≤ k ∧ Candidate players k S ∧ value = v S ∧ (∀ k' S', 1 ≤ k' → k' < k → Candidate players k' S' → v S' < pi) ∧
    ∀ S', Candidate players k S' → v S' ≤ v S

/-- **C112, the local stages.** If the three stages give the sets `ss`, the rules `rr` and the samples `dd` of the observations `x`, then for each
observation: the set and its complement split the columns; the weights are those of the training rows when the complement is fixed at
the observation, for its own target; each rule has the probability of the target of the observation in the call of the second
stage, and fixes the complement at the observation; the sample lies in a rule of largest probability and equals the observation outside the set. -/
theorem C112_local {a : CfArgs} {order : List Nat} {xTest : List Row} {regions : List Row → CrParams → Except String (List Rule)}
    (h : SearchArgs a.m [[]] (rfSpace a.m order)) {x : List Row} {p q r : CrParams} (h0 : 0 < p.pi) (h1 : p.pi ≤ 1)
    (hdata : ∀ i < a.N, ∀ j < a.m, -10000000000 < a.data i j ∧ a.data i j ≤ 10000000000)
    {ss : List CrSet} {rr : List CrRules} {dd : List (List Sample)} (hl : LocalResult (crEngine a order xTest regions) x p q r ss rr dd)
    {i : Nat} {xi : Row} (hi : x[i]? = some xi) {S Sb : List Nat} {w : Nat → ℚ} (hs : ss[i]? = some (S, Sb, w)) {rs : CrRules}
    (hr : rr[i]? = some rs) {ds : List Sample} (hd : dd[i]? = some ds) :
    S.Nodup ∧ (∀ j ∈ S, j < a.m) ∧ (∀ j, j ∈ Sb ↔ j < a.m ∧ j ∉ S) ∧
    w = (cdpWeights a.mems Sb xi (p.target i) (p.down i) (p.up i) a.data a.y a.minSize a.maxDepth a.N a.classifier).2 ∧
    (∀ c ∈ rs, c.2 = cdpCond a.mems Sb xi c.1 (q.target i) (q.down i) (q.up i) a.data a.y a.minSize a.maxDepth a.N a.classifier ∧
      ∀ s ∈ Sb, c.1 s = (xi s, xi s)) ∧
    ∀ d ∈ ds, (∃ c ∈ rs, (∀ c' ∈ rs, c'.2.1 ≤ c.2.1) ∧ InClosed a.m c.1 d.best) ∧ ∀ j, j ∉ S → d.best j = xi j := by
  obtain ⟨ss', e, _, hsp⟩ := crLocalSets_spec h x h0 h1
  have e' : crLocalSets a order x p = .ok ss := hl.sets
  rw [e] at e'; cases e'
  obtain ⟨S0, v, b1, b2, b3, _, _⟩ := hsp i xi hi
  rw [hs] at b3
  have b4 := Option.some.inj b3
  obtain ⟨b5, b6⟩ := Prod.mk.inj b4
  obtain ⟨b7, b8⟩ := Prod.mk.inj b6
  subst b5 b7
  clear b3 b4 b6
  have hbar : ∀ j, j ∈ otherCols a.m S ↔ j < a.m ∧ j ∉ S := by
    intro j; simp [otherCols]
  have hrule := hl.rules i xi (S, otherCols a.m S, w) rs hi hs hr
  simp only [crEngine] at hrule
  refine ⟨b1, b2, hbar, b8, ?_, ?_⟩
  · intro c hc
    have hk := hrule
    unfold runLocal at hk
    obtain ⟨k1, k2, _⟩ := (C47_local hk).1 c hc
    exact ⟨k1, fun s hs => k2 s hs ((hbar s).1 hs).2⟩
  · intro d hdd
    have hsam := hl.samples i xi (S, otherCols a.m S, w) rs ds hi hs hr hd
    by_cases hno : (crEngine a order xTest regions).noRule rs = true
    · rw [if_pos hno] at hsam
      rw [hsam] at hdd; cases hdd
    · rw [if_neg hno] at hsam
      obtain ⟨d', rfl, hd'⟩ := hsam
      rw [List.mem_singleton.1 hdd]
      have hrun := crSample_ok hd'
      exact C40_end_to_end (a := crArgs a q i) hdata b2 hbar hrule r.score r.batch r.maxIter _ _ _ hrun

/-- **C112, the test rows of a region.** They are test rows in the order of the test set, at most `max_obs`, inside the region with both bounds; a test row
in the region is left out only if `max_obs` test rows of the region come before it. -/
theorem C112_tests (m : Nat) (xTest : List Row) (maxObs : Nat) (g : Rule) :
    (crTests m xTest maxObs g).Sublist xTest ∧ (crTests m xTest maxObs g).length ≤ maxObs ∧ (∀ z ∈ crTests m xTest maxObs g, InClosed m g z) ∧
    ∀ (k : Nat) z, xTest[k]? = some z → InClosed m g z → z ∉ crTests m xTest maxObs g →
      (crTests m (xTest.take k) maxObs g).length = maxObs := by
  have hin : ∀ z, ((List.range m).all fun s => decide (z s ≤ (g s).2) && decide ((g s).1 ≤ z s)) = true ↔ InClosed m g z := by
    intro z
    simp only [List.all_eq_true, List.mem_range, Bool.and_eq_true, decide_eq_true_eq, InClosed]
    exact ⟨fun h s hs => ⟨(h s hs).2, (h s hs).1⟩, fun h s hs => ⟨(h s hs).2, (h s hs).1⟩⟩
  unfold crTests
  refine ⟨(List.take_sublist _ _).trans List.filter_sublist, List.length_take_le _ _, ?_, ?_⟩
  · intro z hz
    exact (hin z).1 (List.mem_filter.1 (List.mem_of_mem_take hz)).2
  · intro k z hk hz hnot
    obtain ⟨hlt, hkz⟩ := List.getElem?_eq_some_iff.1 hk
    rw [List.length_take]
    refine min_eq_left (not_lt.1 fun hlen => hnot ?_)
    have hsplit : xTest = xTest.take k ++ z :: xTest.drop (k + 1) := by
      rw [← hkz, List.getElem_cons_drop, List.take_append_drop]
    rw [hsplit, List.filter_append, List.filter_cons, if_pos ((hin z).2 hz), List.take_append]
    refine List.mem_append_right _ ?_
    have hpos : 0 < maxObs - ((xTest.take k).filter fun z => (List.range m).all fun s => decide (z s ≤ (g s).2) && decide ((g s).1 ≤ z s)).length := by
      omega
    obtain ⟨n, hn⟩ := Nat.exists_eq_succ_of_ne_zero (Nat.pos_iff_ne_zero.1 hpos)
    rw [hn, List.take_succ_cons]
    exact List.mem_cons_self

/-- The sets, complements and weights of the regions. The weights are those with the columns of the **complement** free. -/
theorem crRegionalSets_spec {a : CfArgs} {order : List Nat} (h : SearchArgs a.m [[]] (rfSpace a.m order)) (x : List Row) (gs : List Rule)
    {p : CrParams} (h0 : 0 < p.pi) (h1 : p.pi ≤ 1) : ∃ ss, crRegionalSets a order x gs p = .ok ss ∧ ss.length = x.length ∧
      ∀ (i : Nat) xi gi, x[i]? = some xi → gs[i]? = some gi → ∃ S v, S.Nodup ∧ (∀ j ∈ S, j < a.m) ∧
        ss[i]? = some (S, otherCols a.m S, (cdpIntv a.mems (otherCols a.m S) gi (p.target i) (p.down i, p.up i) a.data a.y a.minSize
          a.maxDepth a.N a.classifier).2) ∧
        (p.pi ≤ v → S.length ≠ a.m → RegionReport (searchPlayers [[]] (rfSpace a.m order)) (fun T => (cdpIntv a.mems T gi (p.target i)
          (p.down i, p.up i) a.data a.y a.minSize a.maxDepth a.N a.classifier).1) p.pi S v) := by
  obtain ⟨-, st, e, hrep⟩ := C76_intv_partial h (crCallOf a x p) (fun i => gs.getD i Rule.init) x.length h0 h1 1 p.stop p.half
  unfold crRegionalSets
  rw [e]
  refine ⟨_, rfl, by simp, fun i xi gi hi hg => ?_⟩
  have hlt : i < x.length := (List.getElem?_eq_some_iff.1 hi).1
  have hG : gs.getD i Rule.init = gi := by
    rw [List.getD_eq_getElem?_getD, hg]; rfl
  have hcols : ∃ S : List Nat, (st.best i).cols = S.map (↑) ∧ S.Nodup ∧ ∀ c ∈ S, c < a.m := by
    have e2 := e
    unfold importanceCdpIntv at e2
    obtain ⟨s2, e3, e4⟩ := importanceSdpRf_eq h ((crCallOf a x p).cdpIn (fun i => gs.getD i Rule.init)) x.length p.pi 1 p.stop p.half
    have e5 : some st = some s2 := e2.symm.trans e3
    cases e5
    rw [e4]
    exact search_cols finOk_id (valsOk_mask _ x.length) a.m p.pi p.stop p.half (playersOk h) 1 _ hlt
  obtain ⟨S, hS1, hS2, hS3⟩ := hcols
  refine ⟨S, (st.best i).sdp, hS2, hS3, ?_, ?_⟩
  · rw [List.getElem?_map, List.getElem?_zipIdx, hi]
    simp only [Option.map_some, Nat.zero_add]
    rw [crSplit_spec hS1, hG]
  · intro hv hne
    obtain ⟨k, S', b1, b2, b3, _, b5, _, b7, b8⟩ := hrep i hlt hv
    have : S' = S := by
      rw [hS1] at b3
      exact (List.map_injective_iff.2 (fun a b hab => by exact_mod_cast hab) b3).symm
    subst this
    simp only [hG] at b5 b7 b8
    exact ⟨k, b1, b2, b5 hne, b7, b8⟩

/-- **C112, the regional stages.** The set of a region and its complement split the columns; the set is the one of the search, which frees the
columns of the set and keeps the others in the region; the weights are those of the training rows when the columns of the
*complement* are free. Each rule has the probability of the wanted output of the call of the divergent sets and keeps the region outside
the set. -/
theorem C112_regional_partial {a : CfArgs} {order : List Nat} {xTest : List Row} {regions : List Row → CrParams → Except String (List Rule)}
    (h : SearchArgs a.m [[]] (rfSpace a.m order)) {x : List Row} {g p q : CrParams} (h0 : 0 < p.pi) (h1 : p.pi ≤ 1)
    {gs : List Rule} {ss : List CrSet} {rr : List CrRules} (hl : RegionalResult (crEngine a order xTest regions) x g p q gs ss rr)
    {i : Nat} {xi : Row} (hi : x[i]? = some xi) {gi : Rule} (hg : gs[i]? = some gi) {S Sb : List Nat} {w : Nat → ℚ}
    (hs : ss[i]? = some (S, Sb, w)) {rs : CrRules} (hr : rr[i]? = some rs) :
    S.Nodup ∧ (∀ j ∈ S, j < a.m) ∧ (∀ j, j ∈ Sb ↔ j < a.m ∧ j ∉ S) ∧
    w = (cdpIntv a.mems Sb gi (p.target i) (p.down i, p.up i) a.data a.y a.minSize a.maxDepth a.N a.classifier).2 ∧
    (∃ v, p.pi ≤ v → S.length ≠ a.m → RegionReport (searchPlayers [[]] (rfSpace a.m order)) (fun T => (cdpIntv a.mems T gi (p.target i)
      (p.down i, p.up i) a.data a.y a.minSize a.maxDepth a.N a.classifier).1) p.pi S v) ∧
    ∀ c ∈ rs, c.2 = cdpCond a.mems [] xi c.1 (p.target i) (p.down i) (p.up i) a.data a.y a.minSize a.maxDepth a.N a.classifier ∧
      ∀ s, s ∉ S → c.1 s = gi s := by
  obtain ⟨ss', e, _, hsp⟩ := crRegionalSets_spec h x gs h0 h1
  have e' := hl.sets
  simp only [crEngine] at e'
  rw [e] at e'; cases e'
  obtain ⟨S0, v, b1, b2, b3, b9⟩ := hsp i xi gi hi hg
  rw [hs] at b3
  have b4 := Option.some.inj b3
  obtain ⟨b5, b6⟩ := Prod.mk.inj b4
  obtain ⟨b7, b8⟩ := Prod.mk.inj b6
  subst b5 b7
  clear b3 b4 b6
  have hrule := hl.rules i xi gi (S, otherCols a.m S, w) rs hi hg hs hr
  simp only [crEngine] at hrule
  exact ⟨b1, b2, fun j => by simp [otherCols], b8, ⟨v, b9⟩, (C47_regional hrule).1⟩

/-- **C112, the regional samples.** The sample of a test row of a region lies in a rule of largest probability of the region and equals
the test row outside the set. -/
theorem C112_regional_samples {a : CfArgs} {order : List Nat} {xTest : List Row} {regions : List Row → CrParams → Except String (List Rule)}
    (h : SearchArgs a.m [[]] (rfSpace a.m order)) {x : List Row} {g p q f r : CrParams} (h0 : 0 < p.pi) (h1 : p.pi ≤ 1)
    (hdata : ∀ i < a.N, ∀ j < a.m, -10000000000 < a.data i j ∧ a.data i j ≤ 10000000000)
    {gs : List Rule} {ss : List CrSet} {rr : List CrRules} (hl : RegionalResult (crEngine a order xTest regions) x g p q gs ss rr)
    {dd : List (List Sample)} (hd : RegionalSamples (crEngine a order xTest regions) f r gs ss rr dd)
    {i : Nat} {xi : Row} (hi : x[i]? = some xi) {gi : Rule} (hg : gs[i]? = some gi) {S Sb : List Nat} {w : Nat → ℚ}
    (hs : ss[i]? = some (S, Sb, w)) {rs : CrRules} (hr : rr[i]? = some rs) (hne : rs ≠ []) {ds : List Sample} (hds : dd[i]? = some ds)
    {k : Nat} {z : Row} (hz : (crTests a.m xTest r.maxObs gi)[k]? = some z) {d : Sample} (hk : ds[k]? = some d) :
    (∃ c ∈ rs, (∀ c' ∈ rs, c'.2.1 ≤ c.2.1) ∧ InClosed a.m c.1 d.best) ∧ ∀ j, j ∉ S → d.best j = z j := by
  obtain ⟨_, hS, _, _, _, _⟩ := C112_regional_partial h h0 h1 hl hi hg hs hr
  have hrule := hl.rules i xi gi (S, Sb, w) rs hi hg hs hr
  simp only [crEngine] at hrule
  have hno : (crEngine a order xTest regions).noRule rs = false := by
    cases rs with
    | nil => exact absurd rfl hne
    | cons _ _ => rfl
  have hsam := hd.samples i gi (S, Sb, w) rs ds k z d hg hs hr hds hno hz hk
  simp only [crEngine] at hsam
  have hrun := crSample_ok hsam
  have hzin := (C112_tests a.m xTest r.maxObs gi).2.2.1 z (List.mem_of_getElem? hz)
  unfold runSampling at hrun
  cases hb : bestCf rs with
  | none => rw [hb] at hrun; cases hrun
  | some c =>
    rw [hb] at hrun
    obtain ⟨s', hs', he⟩ := Option.map_eq_some_iff.1 hrun
    obtain rfl := Option.some.inj he
    obtain ⟨c, hc, rfl, hmax⟩ := bestCf_spec hb
    unfold regionalCf at hrule
    cases hgc : getCompatible (crArgs a p i) w q.pi q.acc (q.draws i) with
    | error e => rw [hgc] at hrule; cases hrule
    | ok suf =>
      rw [hgc] at hrule
      simp only at hrule
      cases hrg : returnGe (crArgs a p i) S xi gi q.pi suf with
      | error e => rw [hrg] at hrule; cases hrule
      | ok l' =>
        rw [hrg] at hrule
        have hrs : pruneCf (crArgs a p i).m l' = rs := by injection hrule
        subst hrs
        obtain ⟨h1, -⟩ := (C47_selection (geProb (crArgs a p i) xi) q.pi (suf.map (geCond S gi))).2 l' hrg
        obtain ⟨hc1, -⟩ := h1 c (mem_pruneCf hc)
        obtain ⟨leaf, hleaf, hle⟩ := List.mem_map.1 hc1
        have hfull := (C57_leaves (a := crArgs a p i) hdata hgc).2 leaf hleaf
        have hin : ∀ j ∈ S, c.1 j = ruleOf leaf j := fun j hj => by
          rw [← hle]
          exact if_pos hj
        obtain ⟨h3, h4⟩ := C40_inside a.N a.data f.score (fun j hj => by
          rw [hin j hj]
          exact hfull.1 j (hS j hj)) z r.batch r.maxIter 10 _ _ _ hs'
        refine ⟨⟨c, hc, hmax, fun j hj => ?_⟩, h4⟩
        by_cases hj' : j ∈ S
        · exact h3 j hj'
        · have e : c.1 j = gi j := by
            rw [← hle]
            unfold geCond
            rw [if_neg hj']
          rw [e, h4 j hj']
          exact hzin j hj

/-- The weights of a region are used to find the training rows of which the leaves become rules; they should be those of the probability the
set was chosen for, with the columns of the set free and the others in the region. -/
def C112_weights_claim : Prop :=
  ∀ (a : CfArgs) (order : List Nat) (x : List Row) (gs : List Rule) (p : CrParams) (ss : List CrSet), 0 < p.pi → p.pi ≤ 1 →
    SearchArgs a.m [[]] (rfSpace a.m order) → crRegionalSets a order x gs p = .ok ss → ∀ (i : Nat) gi S Sb w, i < x.length → gs[i]? = some gi →
      ss[i]? = some (S, Sb, w) → ∀ n < a.N,
        w n = (cdpIntv a.mems S gi (p.target i) (p.down i, p.up i) a.data a.y a.minSize a.maxDepth a.N a.classifier).2 n

/-- A region that is the corner of the second training row. -/
def sideRegion : Rule := fun j => if j = 0 then (-10000000000, 0) else (1/2, 10000000000)

theorem corner_search : SearchArgs cornerArgs.m [[]] (rfSpace cornerArgs.m []) where
  space_nodup := by decide
  space_lt := by decide
  groups_nodup := by decide
  groups_lt := by decide

/-- The level is 3/8. -/
def sideParams : CrParams := { cornerParams with pi := 3/8 }

theorem side_sets : ∃ w, crRegionalSets cornerArgs [] [pairRow (-1) 1] [sideRegion] sideParams = .ok [([1], [0], w)] ∧
    (List.range 4).map w = [1/8, 3/8, 1/8, 3/8] := by
  have e2 : (crRegionalSets cornerArgs [] [pairRow (-1) 1] [sideRegion] sideParams).map
      (fun ss => ss.map (fun s => (s.1, s.2.1, (List.range 4).map s.2.2))) = .ok [([1], [0], [1/8, 3/8, 1/8, 3/8])] := by decide +kernel
  cases e : crRegionalSets cornerArgs [] [pairRow (-1) 1] [sideRegion] sideParams with
  | error m => rw [e] at e2; cases e2
  | ok ss =>
    rw [e] at e2
    have e3 := Except.ok.inj e2
    match ss, e3 with
    | [(S, Sb, w)], e3 =>
      simp only [List.map_cons, List.map_nil, List.cons.injEq, Prod.mk.injEq, and_true] at e3
      obtain ⟨rfl, rfl, hw⟩ := e3
      exact ⟨w, rfl, hw⟩

/-- **C112, the weights claim is false**: the set of the region is the second column; the weights are those with the first column free. -/
theorem C112_weights_false : ¬ C112_weights_claim := by
  intro h
  obtain ⟨w, e, hw⟩ := side_sets
  have h1 := h cornerArgs [] [pairRow (-1) 1] [sideRegion] sideParams _ (by decide +kernel) (by decide +kernel) corner_search e 0 sideRegion [1] [0] w
    (by decide) rfl rfl 0 (by decide)
  have h2 : (cdpIntv cornerArgs.mems [1] sideRegion (sideParams.target 0) (sideParams.down 0, sideParams.up 0) cornerArgs.data cornerArgs.y
    cornerArgs.minSize cornerArgs.maxDepth cornerArgs.N cornerArgs.classifier).2 0 = 3/8 := by decide +kernel
  have h3 : w 0 = 1/8 := by
    simp only [List.range, List.range.loop, List.map_cons, List.cons.injEq] at hw
    exact hw.1
  rw [h2, h3] at h1
  norm_num at h1

/-- The share of the wanted output `t` in the weights `w`. -/
def wantedMass (a : CfArgs) (w : Nat → ℚ) (t : ℚ) : ℚ := ((List.range a.N).map fun n => if a.y n = t then w n else 0).sum

/-- For a classifier the set of a region is documented to be one of which the change gives the wanted output: if the change of a single column
gives it with probability `pi`, the change of the reported set should. -/
def C112_wanted_claim : Prop :=
  ∀ (a : CfArgs) (order : List Nat) (x : List Row) (gs : List Rule) (p : CrParams) (ss : List CrSet), 0 < p.pi → p.pi ≤ 1 → a.classifier = true →
    SearchArgs a.m [[]] (rfSpace a.m order) → crRegionalSets a order x gs p = .ok ss → ∀ (i : Nat) gi S Sb w, i < x.length → gs[i]? = some gi →
      ss[i]? = some (S, Sb, w) → ∀ j < a.m,
        p.pi ≤ wantedMass a (cdpIntv a.mems [j] gi (p.target i) (p.down i, p.up i) a.data a.y a.minSize a.maxDepth a.N a.classifier).2 (p.target i) →
        p.pi ≤ wantedMass a (cdpIntv a.mems S gi (p.target i) (p.down i, p.up i) a.data a.y a.minSize a.maxDepth a.N a.classifier).2 (p.target i)

/-- **C112, the claim on the wanted output is false**: the search counts the outputs that *differ* from the wanted one. Freeing the first column
gives the wanted output with probability 3/8; the set found is the second column, with probability 1/8. -/
theorem C112_wanted_false : ¬ C112_wanted_claim := by
  intro h
  obtain ⟨w, e, -⟩ := side_sets
  have h1 := h cornerArgs [] [pairRow (-1) 1] [sideRegion] sideParams _ (by decide +kernel) (by decide +kernel) rfl corner_search e 0 sideRegion [1] [0] w
    (by decide) rfl rfl 0 (by decide) (by decide +kernel)
  revert h1
  decide +kernel

/-! ## Instances -/

example : ∃ ss rr dd, LocalResult cornerEngine [pairRow (-1) 1, pairRow 1 (-1)] cornerParams cornerParams cornerParams ss rr dd ∧
    SearchArgs cornerArgs.m [[]] (rfSpace cornerArgs.m []) ∧ 0 < cornerParams.pi ∧ cornerParams.pi ≤ 1 ∧
    ∀ i < cornerArgs.N, ∀ j < cornerArgs.m, -10000000000 < cornerArgs.data i j ∧ cornerArgs.data i j ≤ 10000000000 := by
  obtain ⟨ss, rr, dd, h⟩ := localResult_of_quiet cornerEngine (crEngine_sets_len _ _ _ _) [] (x := [pairRow (-1) 1, pairRow 1 (-1)])
    (p := cornerParams) (q := cornerParams) (r := cornerParams) (by decide +kernel) (by decide +kernel) (by decide +kernel)
  exact ⟨ss, rr, dd, h, corner_search, by decide +kernel, by decide +kernel, by decide +kernel⟩

example : ∃ gs ss rr, RegionalResult cornerEngine [pairRow (-1) 1] cornerParams cornerParams cornerParams gs ss rr := corner_regional

example : (crTests 2 [pairRow 1 (-1), pairRow (-1) 1, pairRow (-3) 2, pairRow 0 (1/2)] 2 sideRegion).map (fun z => (z 0, z 1)) =
    [(-1, 1), (-3, 2)] := by decide +kernel

end Acv
