import Verif.Lemmas.SearchEnum
import Verif.Props.Projected

/-! # C29-C35, C50: searches of sufficient explanations -/

namespace Acv

/-! ## Consequences of the loop lemmas shared by the three searches -/

/-- What one sample gets from a search over the sizes `minimal, ..., minimal + n - 1`. -/
def sampleResult (fin : Best → Best) (players : List (List Nat)) (v : List Nat → ℚ) (cols : Nat) (pi : ℚ) (minimal n : Nat)
    (stop : Bool) (half : Nat) : Best :=
  oneLoop fin v cols pi stop half ((List.range' minimal n).map (levelOf players)) Best.init

theorem batch_best {fin : Best → Best} (hf : FinOk fin) {vals : List Nat → List Nat → List ℚ} {sdp : Nat → List Nat → ℚ} {N : Nat}
    (hv : ValsOk vals sdp N) (cols : Nat) (pi : ℚ) (stop : Bool) (half : Nat) (levels : List (List (List Nat))) {i : Nat} (hi : i < N) :
    (searchLoop fin vals cols pi stop half levels (Batch.init N)).best i
      = oneLoop fin (sdp i) cols pi stop half levels Best.init := by
  have := (searchLoop_spec hf hv cols pi stop half levels (Batch.init N) (List.Sublist.refl _)).1 i
  rw [this, if_pos (show i ∈ (Batch.init N).R from List.mem_range.2 hi)]
  rfl

theorem batch_glob {fin : Best → Best} (hf : FinOk fin) {vals : List Nat → List Nat → List ℚ} {sdp : Nat → List Nat → ℚ} {N : Nat}
    (hv : ValsOk vals sdp N) (cols : Nat) (pi : ℚ) (stop : Bool) (half : Nat) (levels : List (List (List Nat))) (j : Nat) :
    (searchLoop fin vals cols pi stop half levels (Batch.init N)).glob j
      = (((List.range N).filter fun i => decide (pi ≤
        ((searchLoop fin vals cols pi stop half levels (Batch.init N)).best i).sdp)).map fun i =>
        ((searchLoop fin vals cols pi stop half levels (Batch.init N)).best i).cols.count (j : Int)).sum := by
  have := (searchLoop_spec hf hv cols pi stop half levels (Batch.init N) (List.Sublist.refl _)).2
    (fun i _ _ => rfl) j
  rw [this]
  have e0 : (Batch.init N).glob j = 0 := rfl
  rw [e0, zero_add]
  have hb : ∀ i ∈ List.range N, (searchLoop fin vals cols pi stop half levels (Batch.init N)).best i
      = oneLoop fin (sdp i) cols pi stop half levels Best.init :=
    fun i hi => batch_best hf hv cols pi stop half levels (List.mem_range.1 hi)
  have ef : ((List.range N).filter fun i => decide (pi ≤
        ((searchLoop fin vals cols pi stop half levels (Batch.init N)).best i).sdp)) =
      (List.range N).filter fun i => decide (pi ≤ (oneLoop fin (sdp i) cols pi stop half levels Best.init).sdp) :=
    List.filter_congr fun i hi => by rw [hb i hi]
  rw [ef]
  congr 1
  apply List.map_congr_left
  intro i hi
  rw [hb i (List.mem_filter.1 hi).1]
  rfl

/-- The report of a sample whose SDP reaches `pi`: the recorded columns are those of a candidate of some size `k`; the recorded
probability is that of the candidate, or 1 if the candidate has all columns; all candidates of smaller size are below `pi`;
no candidate of the same size has a larger probability (if the candidate has all columns, it is the only one of its size). -/
def Reports (players : List (List Nat)) (cols minimal : Nat) (v : List Nat → ℚ) (pi : ℚ) (b : Best) : Prop :=
  ∃ k S, minimal ≤ k ∧ Candidate players k S ∧ b.cols = S.map ((↑) : Nat → Int) ∧ b.len = S.length ∧
    (S.length ≠ cols → b.sdp = v S) ∧ (S.length = cols → b.sdp = 1) ∧
    (∀ k' S', minimal ≤ k' → k' < k → Candidate players k' S' → v S' < pi) ∧
    ∀ S', Candidate players k S' → v S' ≤ v S

theorem sample_reports {fin : Best → Best} (hf : FinOk fin) {cols : Nat} {players : List (List Nat)} (hp : PlayersOk cols players)
    (v : List Nat → ℚ) {pi : ℚ} (h0 : 0 < pi) (h1 : pi ≤ 1) (minimal n : Nat) (stop : Bool) (half : Nat)
    (h : pi ≤ (sampleResult fin players v cols pi minimal n stop half).sdp) :
    Reports players cols minimal v pi (sampleResult fin players v cols pi minimal n stop half) := by
  have hg : ∀ c ∈ (List.range' minimal n).map (levelOf players), GoodLevel cols c := by
    intro c hc
    obtain ⟨k, _, rfl⟩ := List.mem_map.1 hc
    exact goodLevel hp k
  rcases oneLoop_spec hf v cols pi stop half _ Best.init hg h0 h1 with ⟨h2, _⟩ | ⟨_, pre, c, post, e, h3, S, hS, h4, h5, h6⟩
  · exact absurd h (not_le.2 h2)
  · obtain ⟨pl, l2, e1, e2, e3⟩ := List.map_eq_append_iff.1 e
    obtain ⟨k, post', e4, e5, e6⟩ := List.map_eq_cons_iff.1 e3
    subst e2 e4 e5
    have hpl : ∀ i, (hi : i < n) → (List.range' minimal n)[i]'(by simpa using hi) = minimal + i := by
      intro i hi; simp
    have hk : k = minimal + pl.length ∧ pl = List.range' minimal pl.length := by
      have hlen : n = pl.length + (post'.length + 1) := by
        have := congrArg List.length e1
        simpa using this
      have e7 : List.range' minimal n = List.range' minimal pl.length ++ List.range' (minimal + pl.length) (post'.length + 1) := by
        rw [List.range'_append_1, hlen]
      rw [e7] at e1
      obtain ⟨a1, a2⟩ := List.append_inj e1 (by simp)
      rw [List.range'_succ] at a2
      exact ⟨(List.cons.inj a2).1.symm, a1.symm⟩
    have hlenS : (sampleResult fin players v cols pi minimal n stop half).len = S.length := by
      have := congrArg List.length h4
      simpa [Best.cols, sampleResult] using this
    refine ⟨k, S, by omega, mem_levelOf.1 hS, h4, hlenS, fun hne => (h5 hne).1, fun he => (h6 he).1, ?_, ?_⟩
    · intro k' S' hk1 hk2 hc
      refine h3 (levelOf players k') ?_ S' (mem_levelOf.2 hc)
      rw [List.mem_map]
      refine ⟨k', ?_, rfl⟩
      rw [hk.2, List.mem_range'_1]
      omega
    · intro S' hS'
      have hS' := mem_levelOf.2 hS'
      by_cases hf : S.length = cols
      · rw [(h6 hf).2] at hS'
        simp at hS'
        rw [hS']
      · exact (h5 hf).2 S' hS'

theorem sample_none {fin : Best → Best} (hf : FinOk fin) {cols : Nat} {players : List (List Nat)} (hp : PlayersOk cols players)
    (v : List Nat → ℚ) {pi : ℚ} (h0 : 0 < pi) (h1 : pi ≤ 1) (minimal n : Nat) (stop : Bool) (half : Nat)
    (h : (sampleResult fin players v cols pi minimal n stop half).sdp < pi) {k : Nat} {S : List Nat} (hk : minimal ≤ k) (hk2 : k < minimal + n)
    (hS : Candidate players k S)
    (hstop : stop = false ∨ ∀ k' S', minimal ≤ k' → k' < k → Candidate players k' S' → S'.length < half) (hhalf : 0 < half) : v S < pi := by
  have hg : ∀ c ∈ (List.range' minimal n).map (levelOf players), GoodLevel cols c := by
    intro c hc
    obtain ⟨k, _, rfl⟩ := List.mem_map.1 hc
    exact goodLevel hp k
  rcases oneLoop_spec hf v cols pi stop half _ Best.init hg h0 h1 with ⟨_, pre, post, e, h3, h4⟩ | ⟨h2, _⟩
  · obtain ⟨pl, l2, e1, e2, e3⟩ := List.map_eq_append_iff.1 e
    have hpl : pl = List.range' minimal pl.length ∧ n = pl.length + l2.length := by
      have hlen : n = pl.length + l2.length := by
        have := congrArg List.length e1
        simpa using this
      refine ⟨?_, hlen⟩
      rw [hlen, ← List.range'_append_1] at e1
      exact (List.append_inj e1 (by simp)).1.symm
    have hmem : k ∈ pl → v S < pi := by
      intro hkp
      exact h3 (levelOf players k) (by rw [← e2]; exact List.mem_map.2 ⟨k, hkp, rfl⟩) S (mem_levelOf.2 hS)
    by_cases hkp : k ∈ pl
    · exact hmem hkp
    · exfalso
      rw [hpl.1, List.mem_range'_1] at hkp
      have hpost : post ≠ [] := by
        rw [← e3]
        intro hnil
        have : l2.length = 0 := by simpa using congrArg List.length hnil
        omega
      obtain ⟨hs, c, hc, hh⟩ := h4 hpost
      rcases hstop with hstop | hstop
      · rw [hs] at hstop; cases hstop
      · -- the last size before the stop is smaller than k
        rw [← e2] at hc
        have hcm : c ∈ pl.map (levelOf players) := List.mem_of_getLast? hc
        obtain ⟨k', hk', rfl⟩ := List.mem_map.1 hcm
        rw [hpl.1, List.mem_range'_1] at hk'
        cases hlast : (levelOf players k').getLast? with
        | none => rw [hlast] at hh; simp at hh; omega
        | some T =>
          rw [hlast] at hh
          have hT : T ∈ levelOf players k' := List.mem_of_getLast? hlast
          have := hstop k' T (by omega) (by omega) (mem_levelOf.1 hT)
          simp at hh
          omega
  · exact absurd h (not_lt.2 h2)

theorem players_le_ten {cols : Nat} {order : List Nat} {C : List (List Nat)}
    (h : SearchArgs cols C ((if cols > 10 then order else List.range cols).take 10)) :
    (searchPlayers C ((if cols > 10 then order else List.range cols).take 10)).length ≤ 10 := by
  generalize hsp : (if cols > 10 then order else List.range cols).take 10 = space at h
  have hlen : space.length ≤ 10 := by
    rw [← hsp, List.length_take]; omega
  unfold searchPlayers
  split
  · -- every group of the players owns a column of the space that no other player owns
    rename_i hC
    set F := C.filter fun g => g.any fun c => decide (c ∈ space) with hF
    have hG : F.length ≤ (space.filter fun c => decide (c ∈ C.flatten)).length := by
      have hsub : F.flatten.Nodup := h.groups_nodup.sublist (List.Sublist.flatten List.filter_sublist)
      have hne : ∀ g ∈ F, ∃ c ∈ g, c ∈ space := by
        intro g hg
        have := (List.mem_filter.1 hg).2
        simpa using this
      have h1 : F.length ≤ (F.flatten.filter fun c => decide (c ∈ space)).length := by
        clear_value F
        clear hF hsub
        induction F with
        | nil => simp
        | cons g F ih =>
          have ih := ih fun g hg => hne g (by simp [hg])
          obtain ⟨c, hc, hs⟩ := hne g (by simp)
          have : 0 < (g.filter fun c => decide (c ∈ space)).length :=
            List.length_pos_of_mem (List.mem_filter.2 ⟨hc, by simpa using hs⟩)
          rw [List.flatten_cons, List.filter_append, List.length_append, List.length_cons]
          omega
      have h2 : (F.flatten.filter fun c => decide (c ∈ space)).Subperm (space.filter fun c => decide (c ∈ C.flatten)) := by
        apply (hsub.filter _).subperm
        intro c hc
        simp only [List.mem_filter, decide_eq_true_eq] at hc ⊢
        exact ⟨hc.2, (List.Sublist.flatten List.filter_sublist).subset hc.1⟩
      exact h1.trans h2.length_le
    have hsplit : (space.filter fun i => decide (i ∉ C.flatten)).length + (space.filter fun c => decide (c ∈ C.flatten)).length
        = space.length := by
      have := List.length_eq_length_filter_add (l := space) (fun i => decide (i ∉ C.flatten))
      have e : (space.filter fun i => !decide (i ∉ C.flatten)) = space.filter fun c => decide (c ∈ C.flatten) :=
        List.filter_congr fun i _ => by by_cases h : i ∈ C.flatten <;> simp [h]
      rw [e] at this
      exact this.symm
    rw [List.length_append, List.length_map]
    omega
  · rw [List.length_map]; exact hlen

/-! ## C29 -/

/-- The columns searched by `importance_sdp_rf`. -/
def rfSpace (cols : Nat) (order : List Nat) : List Nat := (if cols > 10 then order else List.range cols).take 10

theorem importanceSdpRf_eq {cols : Nat} {order : List Nat} {C : List (List Nat)} (h : SearchArgs cols C (rfSpace cols order))
    (sdp : Nat → List Nat → ℚ) (N : Nat) (pi : ℚ) (minimal : Nat) (stop : Bool) (half : Nat) :
    ∃ st, importanceSdpRf sdp N cols order C pi minimal stop half = some st ∧
      st = searchLoop id (maskVals sdp N) cols pi stop half ((List.range' minimal
        ((searchPlayers C (rfSpace cols order)).length + 1 - minimal)).map (levelOf (searchPlayers C (rfSpace cols order)))) (Batch.init N) := by
  refine ⟨_, ?_, rfl⟩
  unfold importanceSdpRf globalSdpRf
  have := players_le_ten h
  rw [levelsRf_eq _ _ (by omega)]
  rfl

/-- **C29** (part). `importance_sdp_rf` always answers, and each sample reported with a probability at least `pi` has a report in
the sense of `Reports`. Missing from the full property: for the set of all columns the reported probability is 1, whatever its
probability is (`C29_full_set_false`). -/
theorem C29_reported_partial {cols : Nat} {order : List Nat} {C : List (List Nat)} (h : SearchArgs cols C (rfSpace cols order))
    (sdp : Nat → List Nat → ℚ) (N : Nat) {pi : ℚ} (h0 : 0 < pi) (h1 : pi ≤ 1) (minimal : Nat) (stop : Bool) (half : Nat) :
    ∃ st, importanceSdpRf sdp N cols order C pi minimal stop half = some st ∧
      ∀ i < N, pi ≤ (st.best i).sdp →
        Reports (searchPlayers C (rfSpace cols order)) cols minimal (sdp i) pi (st.best i) := by
  obtain ⟨st, e, hst⟩ := importanceSdpRf_eq h sdp N pi minimal stop half
  refine ⟨st, e, fun i hi hpi => ?_⟩
  rw [hst, batch_best finOk_id (valsOk_mask sdp N) cols pi stop half _ hi] at hpi ⊢
  exact sample_reports finOk_id (playersOk h) (sdp i) h0 h1 minimal _ stop half hpi

/-- **C29** (complete statement, when the set of all columns has probability 1): the reported set has the reported
probability, no smaller explored set reaches `pi`, and no explored set of the same size has a larger probability. -/
theorem C29_full_one {cols : Nat} {order : List Nat} {C : List (List Nat)} (h : SearchArgs cols C (rfSpace cols order))
    (sdp : Nat → List Nat → ℚ) (N : Nat) {pi : ℚ} (h0 : 0 < pi) (h1 : pi ≤ 1) (minimal : Nat) (stop : Bool) (half : Nat)
    (hfull : ∀ i < N, ∀ S : List Nat, S.Perm (List.range cols) → sdp i S = 1) :
    ∃ st, importanceSdpRf sdp N cols order C pi minimal stop half = some st ∧
      ∀ i < N, pi ≤ (st.best i).sdp → ∃ k S, minimal ≤ k ∧ Candidate (searchPlayers C (rfSpace cols order)) k S ∧
        (st.best i).cols = S.map (↑) ∧ (st.best i).sdp = sdp i S ∧
        (∀ k' S', minimal ≤ k' → k' < k → Candidate (searchPlayers C (rfSpace cols order)) k' S' → sdp i S' < pi) ∧
        ∀ S', Candidate (searchPlayers C (rfSpace cols order)) k S' → sdp i S' ≤ (st.best i).sdp := by
  obtain ⟨st, e, hst⟩ := C29_reported_partial h sdp N h0 h1 minimal stop half
  refine ⟨st, e, fun i hi hpi => ?_⟩
  obtain ⟨k, S, a1, a2, a3, _, a5, a6, a7, a8⟩ := hst i hi hpi
  have hs : (st.best i).sdp = sdp i S := by
    by_cases hl : S.length = cols
    · have hn := candidate_nodup (playersOk h) a2
      have hp : S.Subperm (List.range cols) := hn.1.subperm fun c hc => List.mem_range.2 (hn.2 c hc)
      rw [a6 hl, hfull i hi S (hp.perm_of_length_le (by simp [hl]))]
    · exact a5 hl
  exact ⟨k, S, a1, a2, a3, hs, a7, fun S' hS' => hs ▸ a8 S' hS'⟩

/-- **C29**, the other direction: with `stop = False`, a sample reported below `pi` has no explored set that reaches `pi`. With
`stop = True` the same holds for the explored sets of size `k` if all explored sets of smaller size have fewer columns than half. -/
theorem C29_not_found {cols : Nat} {order : List Nat} {C : List (List Nat)} (h : SearchArgs cols C (rfSpace cols order))
    (sdp : Nat → List Nat → ℚ) (N : Nat) {pi : ℚ} (h0 : 0 < pi) (h1 : pi ≤ 1) (minimal : Nat) (stop : Bool) (half : Nat) (hhalf : 0 < half) :
    ∃ st, importanceSdpRf sdp N cols order C pi minimal stop half = some st ∧
      ∀ i < N, (st.best i).sdp < pi → ∀ k S, minimal ≤ k → Candidate (searchPlayers C (rfSpace cols order)) k S →
        (stop = false ∨ ∀ k' S', minimal ≤ k' → k' < k → Candidate (searchPlayers C (rfSpace cols order)) k' S' → S'.length < half) →
        sdp i S < pi := by
  obtain ⟨st, e, hst⟩ := importanceSdpRf_eq h sdp N pi minimal stop half
  refine ⟨st, e, fun i hi hpi k S hk hS hstop => ?_⟩
  rw [hst, batch_best finOk_id (valsOk_mask sdp N) cols pi stop half _ hi] at hpi
  have := hS.le
  exact sample_none finOk_id (playersOk h) (sdp i) h0 h1 minimal _ stop half hpi hk (by omega) hS hstop hhalf

/-- **C29** for `ACVTree.importance_sdp_clf`, its `_greedy` and `_search` variants, for any number of players (even if the
enumeration is cut). -/
theorem C29_clf_reported_partial {cols : Nat} {C : List (List Nat)} {space : List Nat} (h : SearchArgs cols C space)
    (sdp : Nat → List Nat → ℚ) (N : Nat) {pi : ℚ} (h0 : 0 < pi) (h1 : pi ≤ 1) (minimal : Nat) (stop : Bool) (half : Nat) {i : Nat} (hi : i < N)
    (hpi : pi ≤ ((globalSdpClf sdp N cols C space pi minimal stop half).best i).sdp) :
    Reports (searchPlayers C space) cols minimal (sdp i) pi ((globalSdpClf sdp N cols C space pi minimal stop half).best i) := by
  obtain ⟨n, hn⟩ := levelsClf_take (searchPlayers C space) minimal
  unfold globalSdpClf at hpi ⊢
  rw [hn, batch_best finOk_id (valsOk_map sdp N) cols pi stop half _ hi] at hpi ⊢
  exact sample_reports finOk_id (playersOk h) (sdp i) h0 h1 minimal _ stop half hpi

/-- Two rows with the same columns and different labels: no set of columns has SDP 1. -/
def tieSdp : Nat → List Nat → ℚ := fun _ S =>
  sdpRf [Mem.ofTree rootSplit leafJunk] S (fun _ => 0) 1 (fun _ _ => 0) (fun i => i) 1 1 2 true (0, 0)

/-- **C29** is false for the set of all columns: `importance_sdp_rf` reports it with SDP 1 although its SDP (computed by
`compute_sdp_rf`) is 1/2, below `pi = 9/10`. -/
theorem C29_full_set_false : ∃ st, importanceSdpRf tieSdp 1 2 [] [[]] (9 / 10) 1 false 1 = some st ∧
    (st.best 0).sdp = 1 ∧ (st.best 0).cols = [0, 1] ∧ tieSdp 0 [0, 1] = 1 / 2 := by
  refine ⟨_, rfl, ?_, ?_, ?_⟩ <;> decide +kernel

/-- A probability for the examples: enough columns of {1, 3, 4}; sample 1 needs column 0. -/
def toySdp : Nat → List Nat → ℚ := fun i S =>
  if i = 1 then (if 0 ∈ S then 1 else 0) else (S.filter fun c => decide (c ∈ [1, 3, 4])).length / 4

example : SearchArgs 5 [[3, 4]] (rfSpace 5 []) :=
  ⟨by decide, by decide, by decide, by decide⟩

-- sample 0 gets the group {3, 4} and column 1 (size 2), sample 1 gets column 0, both above 7/10
example : ∃ st, importanceSdpRf toySdp 2 5 [] [[3, 4]] (7 / 10) 1 false 3 = some st ∧
    (st.best 0).sdp = 3 / 4 ∧ (st.best 0).cols = [1, 3, 4] ∧ (st.best 1).sdp = 1 ∧ (st.best 1).cols = [0] := by
  refine ⟨_, rfl, ?_, ?_, ?_, ?_⟩ <;> decide +kernel

-- a value function that is 1 on the set of all columns only
example : ∀ i < 2, ∀ S : List Nat, S.Perm (List.range 3) → (fun (i : Nat) (S : List Nat) => ((S.length : ℚ) - (if i ∈ S then 0 else 1)) / 3) i S = 1 := by
  intro i hi S hS
  have h1 : S.length = 3 := by simpa using hS.length_eq
  have h2 : i ∈ S := hS.mem_iff.2 (List.mem_range.2 (by omega))
  simp [h1, h2]

-- with the level 9/10 and `stop`, sample 0 is reported below the level
example : ∃ st, importanceSdpRf toySdp 2 5 [] [[3, 4]] (9 / 10) 1 true 3 = some st ∧ (st.best 0).sdp < 9 / 10 := by
  refine ⟨_, rfl, ?_⟩; decide +kernel

example : ((globalSdpClf toySdp 2 5 [[3, 4]] (List.range 5) (7 / 10) 1 true 3).best 0).sdp = 3 / 4 ∧
    ((globalSdpClf toySdp 2 5 [[3, 4]] (List.range 5) (7 / 10) 1 true 3).best 0).cols = [1, 3, 4] := by decide +kernel

/-! ## C30 -/

/-- **C30**, `importance_sdp_rf`: the report of a sample depends only on its own probabilities, not on the batch. -/
theorem C30_independent_rf (sdp sdp' : Nat → List Nat → ℚ) (N N' cols : Nat) (order : List Nat) (C : List (List Nat)) (pi : ℚ)
    (minimal : Nat) (stop : Bool) (half : Nat) {st st' : Batch} (h : importanceSdpRf sdp N cols order C pi minimal stop half = some st)
    (h' : importanceSdpRf sdp' N' cols order C pi minimal stop half = some st') {i i' : Nat} (hi : i < N) (hi' : i' < N')
    (hs : sdp i = sdp' i') : st.best i = st'.best i' := by
  unfold importanceSdpRf globalSdpRf at h h'
  obtain ⟨l, hl, rfl⟩ := Option.map_eq_some_iff.1 h
  obtain ⟨l', hl', rfl⟩ := Option.map_eq_some_iff.1 h'
  rw [hl] at hl'
  cases hl'
  rw [batch_best finOk_id (valsOk_mask sdp N) cols pi stop half _ hi,
    batch_best finOk_id (valsOk_mask sdp' N') cols pi stop half _ hi', hs]

/-- **C30**, `importance_sdp_clf`. -/
theorem C30_independent_clf (sdp sdp' : Nat → List Nat → ℚ) (N N' cols : Nat) (C : List (List Nat)) (space : List Nat) (pi : ℚ)
    (minimal : Nat) (stop : Bool) (half : Nat) {i i' : Nat} (hi : i < N) (hi' : i' < N') (hs : sdp i = sdp' i') :
    (globalSdpClf sdp N cols C space pi minimal stop half).best i
      = (globalSdpClf sdp' N' cols C space pi minimal stop half).best i' := by
  unfold globalSdpClf
  rw [batch_best finOk_id (valsOk_map sdp N) cols pi stop half _ hi,
    batch_best finOk_id (valsOk_map sdp' N') cols pi stop half _ hi', hs]

/-- **C30**, `importance_msdp_clf_search`. -/
theorem C30_independent_msdp (sdp sdp' : Nat → List Nat → ℚ) (N N' cols : Nat) (C : List (List Nat)) (space : List Nat) (pi : ℚ)
    (minimal : Nat) (stop : Bool) (half : Nat) {st st' : Batch} (h : msdpSearch sdp N cols C space pi minimal stop half = some st)
    (h' : msdpSearch sdp' N' cols C space pi minimal stop half = some st') {i i' : Nat} (hi : i < N) (hi' : i' < N')
    (hs : sdp i = sdp' i') : st.best i = st'.best i' := by
  unfold msdpSearch at h h'
  obtain ⟨l, hl, rfl⟩ := Option.map_eq_some_iff.1 h
  obtain ⟨l', hl', rfl⟩ := Option.map_eq_some_iff.1 h'
  rw [hl] at hl'
  cases hl'
  rw [batch_best finOk_clearTail (valsOk_map sdp N) cols pi stop half _ hi,
    batch_best finOk_clearTail (valsOk_map sdp' N') cols pi stop half _ hi', hs]

-- sample 1 alone and behind sample 0
example : toySdp 1 = (fun (_ : Nat) => toySdp 1) 0 ∧
    ((globalSdpClf toySdp 2 5 [[3, 4]] (List.range 5) (7 / 10) 1 true 3).best 1).cols = [0] ∧
    ((globalSdpClf (fun _ => toySdp 1) 1 5 [[3, 4]] (List.range 5) (7 / 10) 1 true 3).best 0).cols = [0] := by
  refine ⟨rfl, ?_, ?_⟩ <;> decide +kernel

/-! ## C31 -/

/-- Fraction of the samples `0 .. N-1` reported with a probability at least `pi` whose recorded columns contain `j`. -/
def reportedFraction (best : Nat → Best) (N : Nat) (pi : ℚ) (j : Nat) : ℚ :=
  (((List.range N).filter fun i => decide (pi ≤ (best i).sdp ∧ (j : Int) ∈ (best i).cols)).length : ℚ) / N

theorem frequency_of_nodup {fin : Best → Best} (hf : FinOk fin) {vals : List Nat → List Nat → List ℚ} {sdp : Nat → List Nat → ℚ} {N : Nat}
    (hv : ValsOk vals sdp N) (cols : Nat) (pi : ℚ) (stop : Bool) (half : Nat) {players : List (List Nat)} (hp : PlayersOk cols players)
    (minimal n : Nat) (j : Nat) :
    (searchLoop fin vals cols pi stop half ((List.range' minimal n).map (levelOf players)) (Batch.init N)).importance N j
      = reportedFraction (searchLoop fin vals cols pi stop half ((List.range' minimal n).map (levelOf players)) (Batch.init N)).best N pi j := by
  unfold Batch.importance reportedFraction
  rw [batch_glob hf hv]
  congr 2
  have hnd : ∀ i ∈ List.range N, ((searchLoop fin vals cols pi stop half ((List.range' minimal n).map (levelOf players))
      (Batch.init N)).best i).cols.Nodup := by
    intro i hi
    rw [batch_best hf hv cols pi stop half _ (List.mem_range.1 hi)]
    rcases oneLoop_cols hf (sdp i) cols pi stop half ((List.range' minimal n).map (levelOf players)) Best.init with h | ⟨c, hc, S, hS, h⟩
    · rw [h]; exact List.nodup_nil
    · rw [h]
      obtain ⟨k, _, rfl⟩ := List.mem_map.1 hc
      exact (candidate_nodup hp (mem_levelOf.1 hS)).1.map (fun a b hab => by exact_mod_cast hab)
  generalize (searchLoop fin vals cols pi stop half ((List.range' minimal n).map (levelOf players)) (Batch.init N)).best = best at hnd
  generalize List.range N = l at hnd ⊢
  induction l with
  | nil => rfl
  | cons a l ih =>
    have ih := ih fun i hi => hnd i (by simp [hi])
    have ha := hnd a (by simp)
    rw [List.filter_cons, List.filter_cons]
    by_cases h1 : pi ≤ (best a).sdp
    · by_cases h2 : (j : Int) ∈ (best a).cols
      · simp only [h1, h2, and_self, decide_true, if_true, List.map_cons, List.sum_cons, List.length_cons]
        rw [List.count_eq_one_of_mem ha h2, ih]; omega
      · simp only [h1, h2, and_false, decide_true, decide_false, if_true, List.map_cons, List.sum_cons, Bool.false_eq_true, if_false]
        rw [List.count_eq_zero_of_not_mem h2, ih]; omega
    · simp only [h1, false_and, decide_false, Bool.false_eq_true, if_false]
      exact ih

theorem reportedFraction_bounds (best : Nat → Best) (N : Nat) (pi : ℚ) (j : Nat) :
    0 ≤ reportedFraction best N pi j ∧ reportedFraction best N pi j ≤ 1 := by
  unfold reportedFraction
  refine ⟨div_nonneg (Nat.cast_nonneg _) (Nat.cast_nonneg _), ?_⟩
  apply div_le_one_of_le₀ _ (Nat.cast_nonneg _)
  have := List.length_filter_le (fun i => decide (pi ≤ (best i).sdp ∧ (j : Int) ∈ (best i).cols)) (List.range N)
  rw [List.length_range] at this
  exact_mod_cast this

/-- **C31**, `importance_sdp_rf`: the global importance is the fraction of samples whose reported sufficient explanation
contains the column, and is between 0 and 1. -/
theorem C31_frequency_rf {cols : Nat} {order : List Nat} {C : List (List Nat)} (h : SearchArgs cols C (rfSpace cols order))
    (sdp : Nat → List Nat → ℚ) (N : Nat) (pi : ℚ) (minimal : Nat) (stop : Bool) (half : Nat) :
    ∃ st, importanceSdpRf sdp N cols order C pi minimal stop half = some st ∧
      ∀ j, st.importance N j = reportedFraction st.best N pi j ∧ 0 ≤ st.importance N j ∧ st.importance N j ≤ 1 := by
  obtain ⟨st, e, rfl⟩ := importanceSdpRf_eq h sdp N pi minimal stop half
  refine ⟨_, e, fun j => ?_⟩
  rw [frequency_of_nodup finOk_id (valsOk_mask sdp N) cols pi stop half (playersOk h)]
  exact ⟨rfl, reportedFraction_bounds _ _ _ _⟩

/-- **C31**, `importance_sdp_clf` and variants. -/
theorem C31_frequency_clf {cols : Nat} {C : List (List Nat)} {space : List Nat} (h : SearchArgs cols C space)
    (sdp : Nat → List Nat → ℚ) (N : Nat) (pi : ℚ) (minimal : Nat) (stop : Bool) (half : Nat) (j : Nat) :
    (globalSdpClf sdp N cols C space pi minimal stop half).importance N j
      = reportedFraction (globalSdpClf sdp N cols C space pi minimal stop half).best N pi j ∧
    0 ≤ (globalSdpClf sdp N cols C space pi minimal stop half).importance N j ∧
    (globalSdpClf sdp N cols C space pi minimal stop half).importance N j ≤ 1 := by
  obtain ⟨n, hn⟩ := levelsClf_take (searchPlayers C space) minimal
  unfold globalSdpClf
  rw [hn, frequency_of_nodup finOk_id (valsOk_map sdp N) cols pi stop half (playersOk h)]
  exact ⟨rfl, reportedFraction_bounds _ _ _ _⟩

/-- **C31**, `importance_msdp_clf_search`, at most 15 players. -/
theorem C31_frequency_msdp {cols : Nat} {C : List (List Nat)} {space : List Nat} (h : SearchArgs cols C space)
    (h15 : (searchPlayers C space).length ≤ 15) (sdp : Nat → List Nat → ℚ) (N : Nat) (pi : ℚ) (minimal : Nat) (stop : Bool) (half : Nat) :
    ∃ st, msdpSearch sdp N cols C space pi minimal stop half = some st ∧
      ∀ j, st.importance N j = reportedFraction st.best N pi j ∧ 0 ≤ st.importance N j ∧ st.importance N j ≤ 1 := by
  unfold msdpSearch
  rw [levelsRf_eq _ _ h15]
  refine ⟨_, rfl, fun j => ?_⟩
  rw [frequency_of_nodup finOk_clearTail (valsOk_map sdp N) cols pi stop half (playersOk h)]
  exact ⟨rfl, reportedFraction_bounds _ _ _ _⟩

example : (globalSdpClf toySdp 2 5 [[3, 4]] (List.range 5) (7 / 10) 1 true 3).importance 2 4 = 1 / 2 := by decide +kernel

/-! ## C32 -/

/-- A sufficient explored set that contains no other sufficient explored set. -/
def MinimalSufficient (players : List (List Nat)) (minimal : Nat) (v : List Nat → ℚ) (pi : ℚ) (S : List Nat) : Prop :=
  (∃ k, minimal ≤ k ∧ Candidate players k S) ∧ pi ≤ v S ∧
    ∀ k T, minimal ≤ k → Candidate players k T → pi ≤ v T → T ⊆ S → T = S

/-- **C32**. `sufficient_expl_rf` always answers; it returns the inclusion-minimal sufficient explored sets with their SDP, each
once and by increasing number of players. -/
theorem C32_all_sufficient {cols : Nat} {order : List Nat} {C : List (List Nat)} (h : SearchArgs cols C (rfSpace cols order))
    (v : List Nat → ℚ) (pi : ℚ) (minimal : Nat) :
    ∃ L : List (List Nat), sufficientExpl v cols order C pi minimal = some (L.map fun S => (S.map (↑), v S)) ∧ L.Nodup ∧
      (∀ S, S ∈ L ↔ MinimalSufficient (searchPlayers C (rfSpace cols order)) minimal v pi S) ∧
      L.Pairwise fun S T => ¬ T ⊆ S := by
  classical
  have hp := playersOk h
  have h15 := players_le_ten h
  set players := searchPlayers C (rfSpace cols order) with hpl
  set A := ((List.range' minimal (players.length + 1 - minimal)).map (levelOf players)).flatten with hA
  have hpw : A.Pairwise fun S T => ¬ T ⊆ S := levels_pairwise hp _ _
  refine ⟨A.filter fun S => decide (MinimalIn v pi A S), ?_, ?_, ?_, ?_⟩
  · unfold sufficientExpl
    change (levelsRf players minimal).map _ = _
    rw [levelsRf_eq players _ (by change players.length ≤ 10 at h15; omega)]
    simp only [Option.map_some, suffScan, foldl_levels, ← hA]
    rw [suffFold v pi A hpw]
    rfl
  · refine List.Nodup.filter _ (hpw.imp ?_)
    rintro a b hab rfl
    exact hab (List.Subset.refl _)
  · intro S
    have hmem : ∀ T, T ∈ A ↔ ∃ k, minimal ≤ k ∧ Candidate players k T := by
      intro T
      rw [hA, mem_levels]
      constructor
      · rintro ⟨k, h1, _, h2⟩; exact ⟨k, h1, h2⟩
      · rintro ⟨k, h1, h2⟩
        have := h2.le
        exact ⟨k, h1, by omega, h2⟩
    simp only [List.mem_filter, decide_eq_true_eq, hmem, MinimalIn, MinimalSufficient]
    constructor
    · rintro ⟨h1, h2, h3⟩
      exact ⟨h1, h2, fun k T hk hT hv hs => h3 T ⟨k, hk, hT⟩ hv hs⟩
    · rintro ⟨h1, h2, h3⟩
      exact ⟨h1, h2, fun T ⟨k, hk, hT⟩ hv hs => h3 k T hk hT hv hs⟩
  · exact hpw.filter _

-- not monotone: {2} and {0, 1} are minimal, {1, 3} is sufficient on its own, {0, 1, 3} is not returned
example : sufficientExpl (fun S => if S = [2] ∨ S = [0, 1] ∨ S = [1, 3] ∨ S = [0, 1, 3] then 1 else 0) 4 [] [[]] (9 / 10) 1 =
    some [([2], 1), ([0, 1], 1), ([1, 3], 1)] := by decide +kernel

/-- **C32**, the global frequency returned beside: fraction of all returned explanations (over all samples) that contain `j`,
for explanations without repeated columns; NaN if there is none. -/
theorem C32_global (found : List (List (List Int))) (hnd : ∀ f ∈ found, ∀ S ∈ f, S.Nodup) (j : Nat) :
    (found.flatten = [] → suffGlobal found j = none) ∧
    (found.flatten ≠ [] → suffGlobal found j =
      some (((found.flatten.filter fun S => decide ((j : Int) ∈ S)).length : ℚ) / found.flatten.length)) := by
  have e1 : (found.map fun f => (f.map fun S => S.count (j : Int)).sum).sum = (found.flatten.filter fun S => decide ((j : Int) ∈ S)).length := by
    have hflat : ∀ l : List (List Int), (∀ S ∈ l, S.Nodup) →
        (l.map fun S => S.count (j : Int)).sum = (l.filter fun S => decide ((j : Int) ∈ S)).length := by
      intro l
      induction l with
      | nil => intro _; rfl
      | cons S l ih =>
        intro hl
        have ih := ih fun T hT => hl T (by simp [hT])
        rw [List.map_cons, List.sum_cons, ih, List.filter_cons]
        by_cases hj : (j : Int) ∈ S
        · simp only [hj, decide_true, if_true, List.length_cons]
          rw [List.count_eq_one_of_mem (hl S (by simp)) hj]; omega
        · simp only [hj, decide_false, Bool.false_eq_true, if_false]
          rw [List.count_eq_zero_of_not_mem hj]; omega
    induction found with
    | nil => rfl
    | cons f found ih =>
      have ih := ih fun g hg => hnd g (by simp [hg])
      rw [List.map_cons, List.sum_cons, ih, hflat f (hnd f (by simp)), List.flatten_cons, List.filter_append, List.length_append]
  have e2 : (found.map List.length).sum = found.flatten.length := by rw [List.length_flatten]
  unfold suffGlobal npDiv
  rw [e1, e2]
  constructor
  · intro h; simp [h]
  · intro h
    have : (found.flatten.length : ℚ) ≠ 0 := by
      have := List.length_pos_of_ne_nil h
      positivity
    rw [if_neg this]

example : suffGlobal [[[2], [0, 1], [1, 3]], [], [[1]]] 1 = some (3 / 4) := by decide +kernel

/-! ## C33 -/

/-- **C33**. With at most 15 players the sizes `minimal, minimal + 1, ...` are examined in this order; the list for size `k`
comes from a list without repetition of exactly the sub-lists of `k` players. This covers all calls of `importance_sdp_rf` and
`sufficient_expl_rf` (`players_le_ten`). -/
theorem C33_complete_partial {cols : Nat} {players : List (List Nat)} (hp : PlayersOk cols players) (h15 : players.length ≤ 15) (minimal : Nat) :
    ∃ sub : Nat → List (List (List Nat)),
      (∀ k, (sub k).Nodup ∧ ∀ co, co ∈ sub k ↔ co.Sublist players ∧ co.length = k) ∧
      levelsRf players minimal = some ((List.range' minimal (players.length + 1 - minimal)).map fun k => (sub k).map List.flatten) ∧
      levelsClf players minimal = (List.range' minimal (players.length + 1 - minimal)).map fun k => (sub k).map List.flatten :=
  ⟨fun k => combos k players, fun k => ⟨nodup_combos k hp.players_nodup, fun _ => mem_combos⟩,
    levelsRf_eq players minimal h15, levelsClf_eq players minimal h15⟩

/-- **C33**, in terms of sets of columns: each set of columns of at least `minimal` players is examined once. -/
theorem C33_each_once {cols : Nat} {C : List (List Nat)} {space : List Nat} (h : SearchArgs cols C space)
    (h15 : (searchPlayers C space).length ≤ 15) (minimal : Nat) :
    (levelsClf (searchPlayers C space) minimal).flatten.Nodup ∧
    ∀ S, S ∈ (levelsClf (searchPlayers C space) minimal).flatten ↔ ∃ k, minimal ≤ k ∧ Candidate (searchPlayers C space) k S := by
  have hp := playersOk h
  rw [levelsClf_eq _ _ h15]
  constructor
  · refine (levels_pairwise hp _ _).imp ?_
    rintro a b hab rfl
    exact hab (List.Subset.refl _)
  · intro S
    rw [mem_levels]
    constructor
    · rintro ⟨k, h1, _, h2⟩; exact ⟨k, h1, h2⟩
    · rintro ⟨k, h1, h2⟩
      have := h2.le
      exact ⟨k, h1, by omega, h2⟩

example : SearchArgs 6 [[1, 2]] (List.range 6) ∧ (searchPlayers [[1, 2]] (List.range 6)).length = 5 :=
  ⟨⟨by decide, by decide, by decide, by decide⟩, by decide⟩

/-- **C33**, the cut: for every number of players the examined sizes are those from `minimal` on without gap, up to the first
size where the number of examined sets reaches 2^15. -/
theorem C33_cut (players : List (List Nat)) (minimal : Nat) :
    ∃ n, levelsClf players minimal = (List.range' minimal n).map (fun k => (combos k players).map List.flatten) ∧
      minimal + n ≤ max minimal (players.length + 1) ∧
      (minimal + n < players.length + 1 → 2 ^ 15 ≤ ((List.range' minimal n).map (players.length.choose ·)).sum) := by
  have key : ∀ (cnt n minimal c : Nat), n = players.length + 1 - minimal → cnt = enumKeep players.length enumCap (List.range' minimal n) c →
      cnt ≤ n ∧ (cnt < n → enumCap ≤ c + ((List.range' minimal cnt).map (players.length.choose ·)).sum) := by
    intro cnt n
    induction n generalizing cnt with
    | zero => intro minimal c _ h; simp [enumKeep] at h; omega
    | succ n ih =>
      intro minimal c hn h
      rw [List.range'_succ, enumKeep] at h
      by_cases hc : enumCap ≤ c + players.length.choose minimal
      · rw [if_pos hc] at h
        subst h
        refine ⟨by omega, fun _ => ?_⟩
        simpa using hc
      · rw [if_neg hc] at h
        have := ih _ (minimal + 1) (c + players.length.choose minimal) (by omega) rfl
        rw [h]
        refine ⟨by omega, fun hlt => ?_⟩
        rw [Nat.add_comm 1, List.range'_succ, List.map_cons, List.sum_cons]
        have := this.2 (by omega)
        omega
  have hk := key _ _ minimal 0 rfl rfl
  refine ⟨enumKeep players.length enumCap (List.range' minimal (players.length + 1 - minimal)) 0, ?_, by omega, ?_⟩
  · unfold levelsClf
    rw [enumSizes_eq]
    congr 1
    apply List.ext_getElem
    · simp; omega
    · intro i h1 h2
      simp
  · intro hlt
    have := hk.2 (by omega)
    rw [Nat.zero_add] at this
    exact this

/-- **C33** is false for 16 players: `importance_sdp_clf_greedy` on 16 columns never looks at more than 8 of them together, so
the set of 9 columns `0 .. 8` is not examined. -/
theorem C33_false_16 : ∃ S, Candidate (searchPlayers [[]] (List.range 16)) 9 S ∧
    S ∉ (levelsClf (searchPlayers [[]] (List.range 16)) 0).flatten := by
  refine ⟨List.range 9, ⟨(List.range 9).map ([·]), ?_, by simp, (flatten_map_single _).symm⟩, ?_⟩
  · change ((List.range 9).map ([·])).Sublist ((List.range 16).map ([·]))
    exact (show (List.range 9).Sublist (List.range 16) by decide +kernel).map _
  · have hlen : (searchPlayers [[]] (List.range 16)).length = 16 := by decide +kernel
    have e : levelsClf (searchPlayers [[]] (List.range 16)) 0 = (List.range' 0 9).map (levelOf (searchPlayers [[]] (List.range 16))) := by
      unfold levelsClf
      rw [enumSizes_eq, hlen]
      have : enumKeep 16 enumCap (List.range' 0 (16 + 1 - 0)) 0 = 9 := by decide +kernel
      rw [this]
      rfl
    rw [e, mem_levels]
    rintro ⟨k, _, hk, co, h1, h2, h3⟩
    have hone : ∀ p ∈ co, p.length = 1 := by
      intro p hp
      have := h1.subset hp
      change p ∈ (List.range 16).map ([·]) at this
      obtain ⟨a, _, rfl⟩ := List.mem_map.1 this
      rfl
    have : co.flatten.length = co.length := by
      rw [List.length_flatten, List.map_congr_left (g := fun _ => 1) hone]
      simp
    have h9 := congrArg List.length h3
    rw [List.length_range] at h9
    omega

/-- **C33** for 16 players in `global_sdp_rf` and `importance_msdp_clf_search`: the list of sizes is read beyond its end. -/
theorem C33_read_beyond {players : List (List Nat)} (h : 16 ≤ players.length) {minimal : Nat} (hm : minimal ≤ players.length) :
    levelsRf players minimal = none := by
  unfold levelsRf
  apply mapM_none _ _ players.length (List.mem_range'_1.2 ⟨hm, by omega⟩)
  rw [List.getElem?_eq_none_iff]
  obtain ⟨n, e, h1, h2⟩ := C33_cut players 0
  have e' : enumSizes players enumCap (List.range (players.length + 1)) 0 = levelsClf players 0 := by
    unfold levelsClf
    rw [Nat.sub_zero, List.range_eq_range']
  rw [e', e, List.length_map, List.length_range']
  by_contra hlt
  have hn : n = players.length + 1 := by omega
  -- all sizes would have been kept, but the sizes before the last already reach the cut
  have hkeep : enumKeep players.length enumCap (List.range' 0 (players.length + 1)) 0 = players.length + 1 := by
    have := congrArg List.length e
    unfold levelsClf at this
    rw [enumSizes_eq] at this
    simp at this
    have hle := enumKeep_le players.length enumCap (List.range' 0 (players.length + 1)) 0
    simp at hle
    omega
  have key : ∀ (n a c : Nat), enumKeep players.length enumCap (List.range' a (n + 1)) c = n + 1 →
      c + ((List.range' a n).map (players.length.choose ·)).sum < enumCap ∨ n = 0 := by
    intro n
    induction n with
    | zero => intro a c _; exact Or.inr rfl
    | succ n ih =>
      intro a c hk
      left
      rw [List.range'_succ, enumKeep] at hk
      by_cases hc : enumCap ≤ c + players.length.choose a
      · rw [if_pos hc] at hk; omega
      · rw [if_neg hc] at hk
        have := ih (a + 1) (c + players.length.choose a) (by omega)
        rw [List.range'_succ, List.map_cons, List.sum_cons]
        rcases this with h | h
        · omega
        · subst h; simp; omega
  rcases key players.length 0 0 hkeep with hlt2 | h0
  · have h4 : ((List.range players.length).map (players.length.choose ·)).sum + 1 = 2 ^ players.length := by
      rw [← Nat.sum_range_choose, Finset.sum_range_succ, Nat.choose_self]
      rfl
    rw [← List.range_eq_range', Nat.zero_add] at hlt2
    have : 2 ^ 16 ≤ 2 ^ players.length := Nat.pow_le_pow_right (by omega) h
    unfold enumCap at hlt2
    omega
  · omega

example : 16 ≤ (searchPlayers [[]] (List.range 16)).length := by decide +kernel

/-! ## C34 -/

/-- **C34**. If the first `len` cells of a row are distinct columns, the two lists are disjoint and together contain every
column once. -/
theorem C34_partition (m : Nat) (row : Nat → Int) (len : Nat) (hnd : ((List.range len).map row).Nodup)
    (hlt : ∀ s < len, 0 ≤ row s ∧ row s < m) :
    ((activeNull m row len).1 ++ (activeNull m row len).2).Perm ((List.range m).map ((↑) : Nat → Int)) ∧
    List.Disjoint (activeNull m row len).1 (activeNull m row len).2 ∧
    (activeNull m row len).1 = (List.range len).map row := by
  have hdis : List.Disjoint (activeNull m row len).1 (activeNull m row len).2 := by
    intro c h1 h2
    simp only [activeNull, List.mem_filter, decide_eq_true_eq] at h1 h2
    exact h2.2 h1
  have hm : ((List.range m).map ((↑) : Nat → Int)).Nodup :=
    List.nodup_range.map (fun a b hab => by exact_mod_cast hab)
  refine ⟨?_, hdis, rfl⟩
  have hn : ((activeNull m row len).1 ++ (activeNull m row len).2).Nodup := by
    rw [List.nodup_append]
    exact ⟨hnd, hm.filter _, fun a ha b hb hab => hdis ha (hab ▸ hb)⟩
  rw [List.perm_ext_iff_of_nodup hn hm]
  intro c
  simp only [activeNull, List.mem_append, List.mem_filter, decide_eq_true_eq]
  constructor
  · rintro (h | h)
    · obtain ⟨s, hs, rfl⟩ := List.mem_map.1 h
      obtain ⟨h1, h2⟩ := hlt s (List.mem_range.1 hs)
      exact List.mem_map.2 ⟨(row s).toNat, List.mem_range.2 (by omega), by omega⟩
    · exact h.1
  · intro h
    by_cases hc : c ∈ (List.range len).map row
    · exact Or.inl hc
    · exact Or.inr ⟨h, hc⟩

/-- The columns recorded by a search are distinct columns. -/
theorem search_cols {fin : Best → Best} (hf : FinOk fin) {vals : List Nat → List Nat → List ℚ} {sdp : Nat → List Nat → ℚ} {N : Nat}
    (hv : ValsOk vals sdp N) (cols : Nat) (pi : ℚ) (stop : Bool) (half : Nat) {players : List (List Nat)} (hp : PlayersOk cols players)
    (minimal n : Nat) {i : Nat} (hi : i < N) :
    ∃ S : List Nat, ((searchLoop fin vals cols pi stop half ((List.range' minimal n).map (levelOf players)) (Batch.init N)).best i).cols
      = S.map (↑) ∧ S.Nodup ∧ ∀ c ∈ S, c < cols := by
  rw [batch_best hf hv cols pi stop half _ hi]
  rcases oneLoop_cols hf (sdp i) cols pi stop half ((List.range' minimal n).map (levelOf players)) Best.init with h | ⟨c, hc, S, hS, h⟩
  · exact ⟨[], h, List.nodup_nil, by simp⟩
  · obtain ⟨k, _, rfl⟩ := List.mem_map.1 hc
    have := candidate_nodup hp (mem_levelOf.1 hS)
    exact ⟨S, h, this.1, this.2⟩

/-- **C34**, end to end: applied to the tables returned by `importance_sdp_rf`, for every sample. -/
theorem C34_of_search {cols : Nat} {order : List Nat} {C : List (List Nat)} (h : SearchArgs cols C (rfSpace cols order))
    (sdp : Nat → List Nat → ℚ) (N : Nat) (pi : ℚ) (minimal : Nat) (stop : Bool) (half : Nat) :
    ∃ st, importanceSdpRf sdp N cols order C pi minimal stop half = some st ∧ ∀ i < N,
      ((activeNull cols (st.best i).star (st.best i).len).1 ++ (activeNull cols (st.best i).star (st.best i).len).2).Perm
        ((List.range cols).map ((↑) : Nat → Int)) := by
  obtain ⟨st, e, rfl⟩ := importanceSdpRf_eq h sdp N pi minimal stop half
  refine ⟨_, e, fun i hi => ?_⟩
  obtain ⟨S, h1, h2, h3⟩ := search_cols finOk_id (valsOk_mask sdp N) cols pi stop half (playersOk h) minimal
    ((searchPlayers C (rfSpace cols order)).length + 1 - minimal) hi
  generalize (searchLoop id (maskVals sdp N) cols pi stop half _ (Batch.init N)).best i = b at h1
  have hnd : ((List.range b.len).map b.star).Nodup := by
    change b.cols.Nodup
    rw [h1]
    exact h2.map (fun a b hab => by exact_mod_cast hab)
  refine (C34_partition cols b.star b.len hnd ?_).1
  intro s hs
  have : b.star s ∈ b.cols := List.mem_map.2 ⟨s, List.mem_range.2 hs, rfl⟩
  rw [h1] at this
  obtain ⟨c, hc, hcs⟩ := List.mem_map.1 this
  have := h3 c hc
  omega

example : activeNull 4 (fun s => if s = 0 then 2 else if s = 1 then 0 else -1) 2 = ([2, 0], [1, 3]) := by decide +kernel

/-! ## C35 -/

/-- Fraction of the explanations that contain `j`. -/
def explFraction (coal : List (List Nat)) (j : Nat) : ℚ :=
  ((coal.filter fun S => decide (j ∈ S)).length : ℚ) / coal.length

theorem count_flatten (coal : List (List Nat)) (h : ∀ S ∈ coal, S.Nodup) (j : Nat) :
    coal.flatten.count j = (coal.filter fun S => decide (j ∈ S)).length := by
  induction coal with
  | nil => rfl
  | cons S l ih =>
    have ih := ih fun T hT => h T (by simp [hT])
    rw [List.flatten_cons, List.count_append, ih, List.filter_cons]
    by_cases hj : j ∈ S
    · simp only [hj, decide_true, if_true, List.length_cons]
      rw [List.count_eq_one_of_mem (h S (by simp)) hj]; omega
    · simp only [hj, decide_false, Bool.false_eq_true, if_false]
      rw [List.count_eq_zero_of_not_mem hj]; omega

/-- **C35**. `compute_local_sdp` is the average, over the samples with at least one explanation, of the fraction of the
explanations of the sample that contain the column; it is between 0 and 1. If no sample has an explanation, it is NaN. -/
theorem C35_local (all : List (List (List Nat))) (h : ∀ coal ∈ all, ∀ S ∈ coal, S.Nodup) (j : Nat) :
    ((∀ coal ∈ all, coal = []) → localSdp all j = none) ∧
    ((∃ coal ∈ all, coal ≠ []) → ∃ v, localSdp all j = some v ∧
      v = ((all.filter fun c => decide (c ≠ [])).map fun c => explFraction c j).sum / (all.filter fun c => decide (c ≠ [])).length ∧
      0 ≤ v ∧ v ≤ 1) := by
  have hfold : ∀ (l : List (List (List Nat))) (a : ℚ) (n : Nat), (∀ coal ∈ l, ∀ S ∈ coal, S.Nodup) →
      l.foldl (fun (p : ℚ × Nat) coal => if coal.length = 0 then (p.1, p.2 - 1) else (p.1 + localSdpOne coal j, p.2)) (a, n)
      = (a + ((l.filter fun c => decide (c ≠ [])).map fun c => explFraction c j).sum, n - (l.filter fun c => decide (c = [])).length) := by
    intro l
    induction l with
    | nil => intro a n _; simp
    | cons c l ih =>
      intro a n hl
      have hl' : ∀ coal ∈ l, ∀ S ∈ coal, S.Nodup := fun c hc => hl c (by simp [hc])
      rw [List.foldl_cons, List.filter_cons, List.filter_cons]
      by_cases hc : c = []
      · subst hc
        simp only [List.length_nil, if_true, ne_eq, not_true, decide_false, Bool.false_eq_true, if_false, decide_true, List.length_cons]
        rw [ih _ _ hl']
        rw [Nat.sub_sub, Nat.add_comm 1]
      · have hne : ¬ c.length = 0 := by rwa [List.length_eq_zero_iff]
        simp only [hne, if_false, hc, ne_eq, not_false_eq_true, decide_true, if_true, decide_false, Bool.false_eq_true, List.map_cons,
          List.sum_cons]
        rw [ih _ _ hl']
        have : localSdpOne c j = explFraction c j := by
          unfold localSdpOne explFraction
          rw [count_flatten c (hl c (by simp))]
        rw [this, add_assoc]
  have hlen : all.length - (all.filter fun c => decide (c = [])).length = (all.filter fun c => decide (c ≠ [])).length := by
    have := List.length_eq_length_filter_add (l := all) (fun c => decide (c = []))
    have e : (all.filter fun c => !decide (c = [])) = all.filter fun c => decide (c ≠ []) :=
      List.filter_congr fun c _ => by by_cases h : c = [] <;> simp [h]
    rw [e] at this
    omega
  unfold localSdp
  rw [hfold all 0 all.length h, hlen, zero_add]
  simp only [npDiv]
  constructor
  · intro hall
    have : (all.filter fun c => decide (c ≠ [])) = [] := by
      rw [List.filter_eq_nil_iff]
      intro c hc
      simp [hall c hc]
    rw [this]; simp
  · rintro ⟨coal, hc, hne⟩
    have hpos : 0 < (all.filter fun c => decide (c ≠ [])).length :=
      List.length_pos_of_mem (List.mem_filter.2 ⟨hc, by simpa using hne⟩)
    have hq : (0 : ℚ) < ((all.filter fun c => decide (c ≠ [])).length : ℚ) := by exact_mod_cast hpos
    rw [if_neg hq.ne']
    refine ⟨_, rfl, rfl, ?_, ?_⟩
    · apply div_nonneg _ hq.le
      apply List.sum_nonneg
      intro x hx
      obtain ⟨c, _, rfl⟩ := List.mem_map.1 hx
      exact div_nonneg (Nat.cast_nonneg _) (Nat.cast_nonneg _)
    · rw [div_le_one₀ hq]
      have hle : ∀ l : List (List (List Nat)), (l.map fun c => explFraction c j).sum ≤ l.length := by
        intro l
        induction l with
        | nil => simp
        | cons c l ih =>
          rw [List.map_cons, List.sum_cons, List.length_cons]
          have : explFraction c j ≤ 1 := by
            apply div_le_one_of_le₀ _ (Nat.cast_nonneg _)
            exact_mod_cast List.length_filter_le _ _
          push_cast
          linarith
      exact hle _

example : (∀ coal ∈ [[[0, 1], [2]], [], [[1]]], ∀ S ∈ coal, S.Nodup) ∧ localSdp [[[0, 1], [2]], [], [[1]]] 1 = some (3 / 4) := by
  decide +kernel

end Acv
