import Verif.Props.Search

/-!
# C122: raising the level of sufficiency
-/

namespace Acv

/-- The search of one sample at two levels. -/
theorem oneLoop_levels (v : List Nat → ℚ) (cols : Nat) {pi pi' : ℚ} (hp : pi ≤ pi') (stop : Bool) (half : Nat) :
    ∀ (levels : List (List (List Nat))) (b : Best),
    oneLoop id v cols pi' stop half levels b = oneLoop id v cols pi stop half levels b ∨
      (pi ≤ (oneLoop id v cols pi stop half levels b).sdp ∧ (oneLoop id v cols pi stop half levels b).sdp < pi')
  | [], _ => Or.inl rfl
  | cands :: ls, b => by
    simp only [oneLoop, id]
    by_cases h : pi ≤ (oneLevel v cols cands b).sdp
    · by_cases h' : pi' ≤ (oneLevel v cols cands b).sdp
      · rw [if_pos h, if_pos h']
        exact Or.inl rfl
      · rw [if_pos h]
        exact Or.inr ⟨h, not_le.1 h'⟩
    · rw [if_neg h, if_neg fun h' => h (hp.trans h')]
      split
      · exact Or.inl rfl
      · exact oneLoop_levels v cols hp stop half ls _

/-- What a report says about the number of players at two levels. -/
theorem reports_levels {cols : Nat} {players : List (List Nat)} (hok : PlayersOk cols players) {minimal : Nat} {v : List Nat → ℚ} {pi pi' : ℚ}
    (hp : pi ≤ pi') {b b' : Best} (h : Reports players cols minimal v pi b) (h' : Reports players cols minimal v pi' b') (hb : pi' ≤ b'.sdp) :
    ∃ co co' : List (List Nat), co.Sublist players ∧ co'.Sublist players ∧ b.cols = co.flatten.map (↑) ∧ b'.cols = co'.flatten.map (↑) ∧
      co.length ≤ co'.length := by
  obtain ⟨k, S, _, ⟨co, c1, c2, rfl⟩, hcols, _, _, _, hless, _⟩ := h
  obtain ⟨k', S', hk', ⟨co', c1', c2', rfl⟩, hcols', _, hv', _, _, _⟩ := h'
  refine ⟨co, co', c1, c1', hcols, hcols', ?_⟩
  by_contra hlt
  push Not at hlt
  by_cases hf : co'.flatten.length = cols
  · have : co' = players := hok.full c1' hf
    have := c1.length_le
    subst co'
    omega
  · have h1 := hless k' co'.flatten hk' (by omega) ⟨co', c1', c2', rfl⟩
    rw [hv' hf] at hb
    linarith

/-- **C122, minimal explanations.** Take two levels `pi ≤ pi'` and everything else the same. An observation that reaches `pi'` already at level `pi` keeps
its result, and so does an observation without explanation at level `pi`; an observation with an explanation at level `pi'` has one at level `pi`, of at most
as many columns or groups. -/
theorem C122_minimal {cols : Nat} {order : List Nat} {C : List (List Nat)} (h : SearchArgs cols C (rfSpace cols order))
    (sdp : Nat → List Nat → ℚ) (N : Nat) {pi pi' : ℚ} (h0 : 0 < pi) (hp : pi ≤ pi') (h1 : pi' ≤ 1) (minimal : Nat) (stop : Bool) (half : Nat) :
    ∃ st st', importanceSdpRf sdp N cols order C pi minimal stop half = some st ∧ importanceSdpRf sdp N cols order C pi' minimal stop half = some st' ∧
      ∀ i < N, ((st.best i).sdp < pi ∨ pi' ≤ (st.best i).sdp → st'.best i = st.best i) ∧
        (pi' ≤ (st'.best i).sdp → pi ≤ (st.best i).sdp ∧
          ∃ co co' : List (List Nat), co.Sublist (searchPlayers C (rfSpace cols order)) ∧ co'.Sublist (searchPlayers C (rfSpace cols order)) ∧
            (st.best i).cols = co.flatten.map (↑) ∧ (st'.best i).cols = co'.flatten.map (↑) ∧ co.length ≤ co'.length) := by
  obtain ⟨st, e, hst⟩ := importanceSdpRf_eq h sdp N pi minimal stop half
  obtain ⟨st', e', hst'⟩ := importanceSdpRf_eq h sdp N pi' minimal stop half
  obtain ⟨st1, e1, hr⟩ := C29_reported_partial h sdp N h0 (hp.trans h1) minimal stop half
  obtain ⟨st2, e2, hr'⟩ := C29_reported_partial h sdp N (h0.trans_le hp) h1 minimal stop half
  rw [e] at e1
  rw [e'] at e2
  cases e1
  cases e2
  refine ⟨st, st', e, e', fun i hi => ?_⟩
  have hb : st.best i = sampleResult id (searchPlayers C (rfSpace cols order)) (sdp i) cols pi minimal
      ((searchPlayers C (rfSpace cols order)).length + 1 - minimal) stop half := by
    rw [hst, batch_best finOk_id (valsOk_mask sdp N) cols pi stop half _ hi]
    rfl
  have hb' : st'.best i = sampleResult id (searchPlayers C (rfSpace cols order)) (sdp i) cols pi' minimal
      ((searchPlayers C (rfSpace cols order)).length + 1 - minimal) stop half := by
    rw [hst', batch_best finOk_id (valsOk_mask sdp N) cols pi' stop half _ hi]
    rfl
  have hl := oneLoop_levels (sdp i) cols hp stop half ((List.range' minimal
    ((searchPlayers C (rfSpace cols order)).length + 1 - minimal)).map (levelOf (searchPlayers C (rfSpace cols order)))) Best.init
  change sampleResult .. = sampleResult .. ∨ pi ≤ (sampleResult ..).sdp ∧ (sampleResult ..).sdp < pi' at hl
  rw [← hb, ← hb'] at hl
  refine ⟨fun hh => ?_, fun hh => ?_⟩
  · rcases hl with hl | ⟨l1, l2⟩
    · exact hl
    · rcases hh with hh | hh
      · exact absurd l1 (not_le.2 hh)
      · exact absurd l2 (not_lt.2 hh)
  · have hpi : pi ≤ (st.best i).sdp := by
      rcases hl with hl | ⟨l1, _⟩
      · rw [← hl]; exact hp.trans hh
      · exact l1
    exact ⟨hpi, reports_levels (playersOk h) hp (hr i hi hpi) (hr' i hi hh) hh⟩

/-- **C122, minimal explanations of a tree ensemble** (`importance_sdp_clf` and its variants). -/
theorem C122_minimal_clf {cols : Nat} {C : List (List Nat)} {space : List Nat} (h : SearchArgs cols C space)
    (sdp : Nat → List Nat → ℚ) (N : Nat) {pi pi' : ℚ} (h0 : 0 < pi) (hp : pi ≤ pi') (h1 : pi' ≤ 1) (minimal : Nat) (stop : Bool) (half : Nat)
    {i : Nat} (hi : i < N) :
    (((globalSdpClf sdp N cols C space pi minimal stop half).best i).sdp < pi ∨ pi' ≤ ((globalSdpClf sdp N cols C space pi minimal stop half).best i).sdp →
      (globalSdpClf sdp N cols C space pi' minimal stop half).best i = (globalSdpClf sdp N cols C space pi minimal stop half).best i) ∧
    (pi' ≤ ((globalSdpClf sdp N cols C space pi' minimal stop half).best i).sdp →
      pi ≤ ((globalSdpClf sdp N cols C space pi minimal stop half).best i).sdp ∧
      ∃ co co' : List (List Nat), co.Sublist (searchPlayers C space) ∧ co'.Sublist (searchPlayers C space) ∧
        ((globalSdpClf sdp N cols C space pi minimal stop half).best i).cols = co.flatten.map (↑) ∧
        ((globalSdpClf sdp N cols C space pi' minimal stop half).best i).cols = co'.flatten.map (↑) ∧ co.length ≤ co'.length) := by
  obtain ⟨n, hn⟩ := levelsClf_take (searchPlayers C space) minimal
  have hb : ∀ q, (globalSdpClf sdp N cols C space q minimal stop half).best i =
      sampleResult id (searchPlayers C space) (sdp i) cols q minimal (min n ((searchPlayers C space).length + 1 - minimal)) stop half := by
    intro q
    unfold globalSdpClf
    rw [hn, batch_best finOk_id (valsOk_map sdp N) cols q stop half _ hi]
    rfl
  have hl := oneLoop_levels (sdp i) cols hp stop half ((List.range' minimal (min n ((searchPlayers C space).length + 1 - minimal))).map
    (levelOf (searchPlayers C space))) Best.init
  change sampleResult .. = sampleResult .. ∨ pi ≤ (sampleResult ..).sdp ∧ (sampleResult ..).sdp < pi' at hl
  rw [← hb, ← hb] at hl
  refine ⟨fun hh => ?_, fun hh => ?_⟩
  · rcases hl with hl | ⟨l1, l2⟩
    · exact hl
    · rcases hh with hh | hh
      · exact absurd l1 (not_le.2 hh)
      · exact absurd l2 (not_lt.2 hh)
  · have hpi : pi ≤ ((globalSdpClf sdp N cols C space pi minimal stop half).best i).sdp := by
      rcases hl with hl | ⟨l1, _⟩
      · rw [← hl]; exact hp.trans hh
      · exact l1
    exact ⟨hpi, reports_levels (playersOk h) hp (C29_clf_reported_partial h sdp N h0 (hp.trans h1) minimal stop half hi hpi)
      (C29_clf_reported_partial h sdp N (h0.trans_le hp) h1 minimal stop half hi hh) hh⟩

/-- Every sufficient set contains a minimal one. -/
theorem minimal_inside {cols : Nat} {players : List (List Nat)} (hok : PlayersOk cols players) (minimal : Nat) (v : List Nat → ℚ) (pi : ℚ) (k : Nat) :
    ∀ S : List Nat, minimal ≤ k → Candidate players k S → pi ≤ v S → ∃ T, MinimalSufficient players minimal v pi T ∧ T ⊆ S := by
  induction k using Nat.strong_induction_on with
  | _ k ih =>
    intro S hk hc hv
    by_cases hS : MinimalSufficient players minimal v pi S
    · exact ⟨S, hS, List.Subset.refl _⟩
    · unfold MinimalSufficient at hS
      push Not at hS
      obtain ⟨k2, T, hk2, hT, hvT, hsub, hne⟩ := hS ⟨k, hk, hc⟩ hv
      have hlt : k2 < k := by
        obtain ⟨co, c1, c2, rfl⟩ := hc
        obtain ⟨co2, d1, d2, rfl⟩ := hT
        obtain ⟨l1, l2⟩ := hok.subset_length c1 d1 hsub
        refine lt_of_le_of_ne (by omega) fun e => hne ?_
        rw [l2 (by omega)]
      obtain ⟨U, hU, hs⟩ := ih k2 hlt T hk2 hT hvT
      exact ⟨U, hU, fun a ha => hsub (hs ha)⟩

/-- **C122, all sufficient explanations**: every explanation at the higher level contains one at the lower level, with a probability of at least the lower
level; an explanation at the lower level that reaches the higher level is also one at the higher level. -/
theorem C122_all {cols : Nat} {order : List Nat} {C : List (List Nat)} (h : SearchArgs cols C (rfSpace cols order))
    (v : List Nat → ℚ) {pi pi' : ℚ} (hp : pi ≤ pi') (minimal : Nat) :
    ∃ L L' : List (List Nat), sufficientExpl v cols order C pi minimal = some (L.map fun S => (S.map (↑), v S)) ∧
      sufficientExpl v cols order C pi' minimal = some (L'.map fun S => (S.map (↑), v S)) ∧
      (∀ S' ∈ L', ∃ S ∈ L, S ⊆ S') ∧ ∀ S ∈ L, pi' ≤ v S → S ∈ L' := by
  obtain ⟨L, e, _, hm, _⟩ := C32_all_sufficient h v pi minimal
  obtain ⟨L', e', _, hm', _⟩ := C32_all_sufficient h v pi' minimal
  refine ⟨L, L', e, e', fun S' hS' => ?_, fun S hS hv => ?_⟩
  · obtain ⟨⟨k, hk, hc⟩, hv, _⟩ := (hm' S').1 hS'
    obtain ⟨T, hT, hs⟩ := minimal_inside (playersOk h) minimal v pi k S' hk hc (hp.trans hv)
    exact ⟨T, (hm T).2 hT, hs⟩
  · obtain ⟨hc, _, hmin⟩ := (hm S).1 hS
    exact (hm' S).2 ⟨hc, hv, fun k T hk hT hvT hsub => hmin k T hk hT (hp.trans hvT) hsub⟩

/-- A table where raising the level replaces the explanation by a disjoint one. -/
def jumpSdp : Nat → List Nat → ℚ := fun _ S => if S = [1, 2] then 9 / 10 else if S = [0] then 1 / 2 else 0

/-- The natural stronger claim for minimal explanations: the explanation at the lower level is part of the one at the higher level. -/
def C122_claim : Prop :=
  ∀ (cols : Nat) (sdp : Nat → List Nat → ℚ) (N : Nat) (pi pi' : ℚ), SearchArgs cols [[]] (rfSpace cols []) → 0 < pi → pi ≤ pi' → pi' ≤ 1 →
    ∀ st st', importanceSdpRf sdp N cols [] [[]] pi 1 false 1 = some st → importanceSdpRf sdp N cols [] [[]] pi' 1 false 1 = some st' →
      ∀ i < N, pi' ≤ (st'.best i).sdp → (st.best i).cols ⊆ (st'.best i).cols

/-- **C122, the claim is false**: on four columns the explanation at level 1/2 is column 0, the one at level 9/10 is columns 1 and 2. -/
theorem C122_false : ¬ C122_claim := by
  intro h
  have hs : SearchArgs 4 [[]] (rfSpace 4 []) := ⟨by decide, by decide, by decide, by decide⟩
  have := h 4 jumpSdp 1 (1 / 2) (9 / 10) hs (by norm_num) (by norm_num) (by norm_num) _ _ rfl rfl 0 (by omega) (by decide +kernel)
  revert this
  decide +kernel

/-- Three levels of the toy table: the first observation has the group {3, 4} at 1/2 and the group with column 1 at 7/10; it keeps this explanation at 3/4
and has none at 9/10 with `stop`. -/
example : ((importanceSdpRf toySdp 2 5 [] [[3, 4]] (1 / 2) 1 false 3).map fun st => (st.best 0).cols) = some [3, 4] ∧
    ((importanceSdpRf toySdp 2 5 [] [[3, 4]] (7 / 10) 1 false 3).map fun st => ((st.best 0).cols, (st.best 0).sdp)) = some ([1, 3, 4], 3 / 4) ∧
    ((importanceSdpRf toySdp 2 5 [] [[3, 4]] (3 / 4) 1 false 3).map fun st => (st.best 0).cols) = some [1, 3, 4] ∧
    ((importanceSdpRf toySdp 2 5 [] [[3, 4]] (9 / 10) 1 true 3).map fun st => decide ((st.best 0).sdp < 9 / 10)) = some true :=
  ⟨by decide +kernel, by decide +kernel, by decide +kernel, by decide +kernel⟩

/-- All explanations of the toy table at two levels. -/
example : sufficientExpl (toySdp 0) 5 [] [[3, 4]] (1 / 2) 1 = some [([3, 4], 1 / 2)] ∧
    sufficientExpl (toySdp 0) 5 [] [[3, 4]] (3 / 4) 1 = some [([1, 3, 4], 3 / 4)] := ⟨by decide +kernel, by decide +kernel⟩

end Acv
