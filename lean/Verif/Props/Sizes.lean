import Verif.Props.Levels

/-!
# C123: raising the smallest size of a search
-/

namespace Acv

/-- The same report: probability, number of columns, columns. -/
def SameReport (b b' : Best) : Prop := b.sdp = b'.sdp ∧ b.len = b'.len ∧ b.cols = b'.cols

theorem consider_inv (cols : Nat) (S : List Nat) (v pi : ℚ) {b b' : Best} (h : SameReport b b' ∨ (b.sdp < pi ∧ b'.sdp < pi)) :
    SameReport (consider cols S v b) (consider cols S v b') ∨ ((consider cols S v b).sdp < pi ∧ (consider cols S v b').sdp < pi) := by
  by_cases hf : S.length = cols
  · left
    simp only [consider, if_pos hf]
    exact ⟨rfl, rfl, by rw [cols_mk, cols_mk]⟩
  · simp only [consider, if_neg hf]
    rcases h with ⟨h1, h2, h3⟩ | ⟨h1, h2⟩
    · left
      by_cases hv : b.sdp ≤ v
      · rw [if_pos hv, if_pos (h1 ▸ hv)]
        exact ⟨rfl, rfl, by rw [cols_mk, cols_mk]⟩
      · rw [if_neg hv, if_neg (h1 ▸ hv)]
        exact ⟨h1, h2, h3⟩
    · by_cases hv : pi ≤ v
      · left
        rw [if_pos (h1.le.trans hv), if_pos (h2.le.trans hv)]
        exact ⟨rfl, rfl, by rw [cols_mk, cols_mk]⟩
      · right
        constructor <;> split <;> first | exact not_le.1 hv | assumption

theorem oneLevel_inv (v : List Nat → ℚ) (cols : Nat) (pi : ℚ) : ∀ (cands : List (List Nat)) {b b' : Best},
    SameReport b b' ∨ (b.sdp < pi ∧ b'.sdp < pi) →
    SameReport (oneLevel v cols cands b) (oneLevel v cols cands b') ∨ ((oneLevel v cols cands b).sdp < pi ∧ (oneLevel v cols cands b').sdp < pi)
  | [], _, _, h => h
  | T :: cands, _, _, h => oneLevel_inv v cols pi cands (consider_inv cols T (v T) pi h)

/-- Two searches over the same sizes, from two states below the level, find the same. -/
theorem oneLoop_inv (v : List Nat → ℚ) (cols : Nat) (pi : ℚ) (stop : Bool) (half : Nat) : ∀ (levels : List (List (List Nat))) {b b' : Best},
    b.sdp < pi → b'.sdp < pi →
    (SameReport (oneLoop id v cols pi stop half levels b) (oneLoop id v cols pi stop half levels b') ∧ pi ≤ (oneLoop id v cols pi stop half levels b).sdp) ∨
      ((oneLoop id v cols pi stop half levels b).sdp < pi ∧ (oneLoop id v cols pi stop half levels b').sdp < pi)
  | [], _, _, h, h' => Or.inr ⟨h, h'⟩
  | cands :: ls, b, b', h, h' => by
    have hi := oneLevel_inv v cols pi cands (Or.inr ⟨h, h'⟩ : SameReport b b' ∨ (b.sdp < pi ∧ b'.sdp < pi))
    simp only [oneLoop, id]
    by_cases hp : pi ≤ (oneLevel v cols cands b).sdp
    · have hs : SameReport (oneLevel v cols cands b) (oneLevel v cols cands b') := hi.resolve_right fun h => absurd hp (not_le.2 h.1)
      rw [if_pos hp, if_pos (hs.1 ▸ hp)]
      exact Or.inl ⟨hs, hp⟩
    · have hp' : ¬ pi ≤ (oneLevel v cols cands b').sdp := by
        rcases hi with hs | ⟨_, h2⟩
        · rw [← hs.1]; exact hp
        · exact not_le.2 h2
      rw [if_neg hp, if_neg hp']
      split
      · exact Or.inr ⟨not_le.1 hp, not_le.1 hp'⟩
      · exact oneLoop_inv v cols pi stop half ls (not_le.1 hp) (not_le.1 hp')

/-- A search over two runs of sizes: it ends in the first one, with or without success, or goes on with the second one. -/
theorem oneLoop_append (v : List Nat → ℚ) (cols : Nat) (pi : ℚ) (stop : Bool) (half : Nat) (post : List (List (List Nat))) :
    ∀ (pre : List (List (List Nat))) {b : Best}, b.sdp < pi →
    (pi ≤ (oneLoop id v cols pi stop half pre b).sdp ∧ oneLoop id v cols pi stop half (pre ++ post) b = oneLoop id v cols pi stop half pre b) ∨
    ((oneLoop id v cols pi stop half (pre ++ post) b).sdp < pi ∧ stop = true) ∨
    ∃ b0 : Best, b0.sdp < pi ∧ oneLoop id v cols pi stop half (pre ++ post) b = oneLoop id v cols pi stop half post b0
  | [], b, h => Or.inr (Or.inr ⟨b, h, rfl⟩)
  | cands :: ls, b, h => by
    simp only [oneLoop, id, List.cons_append]
    by_cases hp : pi ≤ (oneLevel v cols cands b).sdp
    · rw [if_pos hp, if_pos hp]
      exact Or.inl ⟨hp, rfl⟩
    · rw [if_neg hp, if_neg hp]
      split
      · rename_i hs
        exact Or.inr (Or.inl ⟨not_le.1 hp, (Bool.and_eq_true_iff.1 hs).1⟩)
      · exact oneLoop_append v cols pi stop half post ls (not_le.1 hp)

/-- **C123, minimal explanations.** Take two smallest sizes `m ≤ m'` and everything else the same. An observation whose explanation found from size `m` on has
at least `m'` columns or groups gets the same explanation from size `m'` on. Without `stop`, an observation explained from size `m'` on is explained from size
`m` on. -/
theorem C123_minimal {cols : Nat} {order : List Nat} {C : List (List Nat)} (h : SearchArgs cols C (rfSpace cols order))
    (sdp : Nat → List Nat → ℚ) (N : Nat) {pi : ℚ} (h0 : 0 < pi) (h1 : pi ≤ 1) {m m' : Nat} (hm : m ≤ m') (stop : Bool) (half : Nat) :
    ∃ st st', importanceSdpRf sdp N cols order C pi m stop half = some st ∧ importanceSdpRf sdp N cols order C pi m' stop half = some st' ∧
      ∀ i < N, (pi ≤ (st.best i).sdp → ∀ co : List (List Nat), co.Sublist (searchPlayers C (rfSpace cols order)) →
          (st.best i).cols = co.flatten.map (↑) → m' ≤ co.length → SameReport (st.best i) (st'.best i)) ∧
        (stop = false → pi ≤ (st'.best i).sdp → pi ≤ (st.best i).sdp) := by
  obtain ⟨st, e, hst⟩ := importanceSdpRf_eq h sdp N pi m stop half
  obtain ⟨st', e', hst'⟩ := importanceSdpRf_eq h sdp N pi m' stop half
  refine ⟨st, st', e, e', fun i hi => ?_⟩
  have hok := playersOk h
  set players := searchPlayers C (rfSpace cols order) with hpl
  have hb : st.best i = oneLoop id (sdp i) cols pi stop half ((List.range' m (players.length + 1 - m)).map (levelOf players)) Best.init := by
    rw [hst, batch_best finOk_id (valsOk_mask sdp N) cols pi stop half _ hi]
  have hb' : st'.best i = oneLoop id (sdp i) cols pi stop half ((List.range' m' (players.length + 1 - m')).map (levelOf players)) Best.init := by
    rw [hst', batch_best finOk_id (valsOk_mask sdp N) cols pi stop half _ hi]
  by_cases hlen : m' ≤ players.length + 1
  · have hsplit : (List.range' m (players.length + 1 - m)).map (levelOf players) =
        (List.range' m (m' - m)).map (levelOf players) ++ (List.range' m' (players.length + 1 - m')).map (levelOf players) := by
      rw [← List.map_append]
      congr 1
      have := List.range'_append_1 (s := m) (m := m' - m) (n := players.length + 1 - m')
      rw [show m + (m' - m) = m' by omega] at this
      rw [this]
      congr 1
      omega
    rw [hsplit] at hb
    have hinit : Best.init.sdp < pi := h0
    have hg : ∀ c ∈ (List.range' m (m' - m)).map (levelOf players), GoodLevel cols c := by
      intro c hc
      obtain ⟨k, _, rfl⟩ := List.mem_map.1 hc
      exact goodLevel hok k
    rcases oneLoop_append (sdp i) cols pi stop half ((List.range' m' (players.length + 1 - m')).map (levelOf players))
      ((List.range' m (m' - m)).map (levelOf players)) hinit with ⟨a1, a2⟩ | ⟨a1, a2⟩ | ⟨b0, a1, a2⟩
    · refine ⟨fun _ co hco hcols hl => ?_, fun _ _ => by rw [hb, a2]; exact a1⟩
      exfalso
      rcases oneLoop_spec finOk_id (sdp i) cols pi stop half _ Best.init hg h0 h1 with ⟨h2, _⟩ | ⟨_, pre, c, post, e, _, S, hS, h4, _⟩
      · exact absurd a1 (not_le.2 h2)
      · have hc : c ∈ (List.range' m (m' - m)).map (levelOf players) := by rw [e]; simp
        obtain ⟨k, hk, rfl⟩ := List.mem_map.1 hc
        obtain ⟨co2, hco2, rfl⟩ := List.mem_map.1 hS
        rw [hb, a2, h4] at hcols
        have hfl : co2.flatten = co.flatten := List.map_injective_iff.2 Nat.cast_injective hcols
        rw [mem_combos] at hco2
        have := (hok.subset_length hco2.1 hco (by rw [hfl]; exact fun _ hx => hx)).1
        rw [List.mem_range'_1] at hk
        omega
    · refine ⟨fun hpi => ?_, fun hs => ?_⟩
      · rw [hb] at hpi
        exact absurd hpi (not_le.2 a1)
      · rw [hs] at a2
        cases a2
    · rw [a2] at hb
      rcases oneLoop_inv (sdp i) cols pi stop half ((List.range' m' (players.length + 1 - m')).map (levelOf players)) a1 hinit with ⟨b1, b2⟩ | ⟨b1, b2⟩
      · rw [← hb, ← hb'] at b1
        rw [← hb] at b2
        exact ⟨fun _ _ _ _ _ => b1, fun _ _ => b2⟩
      · rw [← hb] at b1
        rw [← hb'] at b2
        exact ⟨fun hh => absurd hh (not_le.2 b1), fun _ hh => absurd hh (not_le.2 b2)⟩
  · refine ⟨fun _ co hco _ hl => ?_, fun _ hh => ?_⟩
    · have := hco.length_le
      omega
    · rw [hb', show players.length + 1 - m' = 0 by omega] at hh
      exact absurd hh (not_le.2 h0)

/-- **C123, all sufficient explanations**: a set found from size `m` on with at least `m'` columns or groups is found from size `m'` on; every set found from
size `m'` on contains one found from size `m` on. -/
theorem C123_all {cols : Nat} {order : List Nat} {C : List (List Nat)} (h : SearchArgs cols C (rfSpace cols order))
    (v : List Nat → ℚ) (pi : ℚ) {m m' : Nat} (hm : m ≤ m') :
    ∃ L L' : List (List Nat), sufficientExpl v cols order C pi m = some (L.map fun S => (S.map (↑), v S)) ∧
      sufficientExpl v cols order C pi m' = some (L'.map fun S => (S.map (↑), v S)) ∧
      (∀ co : List (List Nat), co.Sublist (searchPlayers C (rfSpace cols order)) → m' ≤ co.length → co.flatten ∈ L → co.flatten ∈ L') ∧
      ∀ S' ∈ L', ∃ S ∈ L, S ⊆ S' := by
  obtain ⟨L, e, _, hL, _⟩ := C32_all_sufficient h v pi m
  obtain ⟨L', e', _, hL', _⟩ := C32_all_sufficient h v pi m'
  refine ⟨L, L', e, e', fun co hco hl hS => ?_, fun S' hS' => ?_⟩
  · obtain ⟨_, hv, hmin⟩ := (hL _).1 hS
    exact (hL' _).2 ⟨⟨_, hl, co, hco, rfl, rfl⟩, hv, fun k T hk hT => hmin k T (hm.trans hk) hT⟩
  · obtain ⟨⟨k, hk, hc⟩, hv, _⟩ := (hL' S').1 hS'
    obtain ⟨T, hT, hs⟩ := minimal_inside (playersOk h) m v pi k S' (hm.trans hk) hc hv
    exact ⟨T, (hL T).2 hT, hs⟩

/-- The natural stronger claim: raising the smallest size only removes sets. -/
def C123_claim : Prop :=
  ∀ (cols : Nat) (v : List Nat → ℚ) (pi : ℚ) (m m' : Nat), SearchArgs cols [[]] (rfSpace cols []) → m ≤ m' → 0 < pi → pi ≤ 1 →
    ∀ L L', sufficientExpl v cols [] [[]] pi m = some L → sufficientExpl v cols [] [[]] pi m' = some L' → L' ⊆ L

/-- **C123, the claim is false**: when column 0 alone suffices, the search from size 2 on lists the pairs with column 0. -/
theorem C123_false : ¬ C123_claim := by
  intro h
  have hs : SearchArgs 3 [[]] (rfSpace 3 []) := ⟨by decide, by decide, by decide, by decide⟩
  have := h 3 (fun S => if 0 ∈ S then 1 else 0) 1 1 2 hs (by norm_num) (by norm_num) (by norm_num) [([0], 1)] [([0, 1], 1), ([0, 2], 1)]
    (by decide +kernel) (by decide +kernel)
  revert this
  decide +kernel

/-- The explanation of the first toy observation has two players and is also found from size 2 on, not from size 3 on. -/
example : ((importanceSdpRf toySdp 2 5 [] [[3, 4]] (7 / 10) 1 false 3).map fun st => ((st.best 0).cols, (st.best 0).sdp)) = some ([1, 3, 4], 3 / 4) ∧
    ((importanceSdpRf toySdp 2 5 [] [[3, 4]] (7 / 10) 2 false 3).map fun st => ((st.best 0).cols, (st.best 0).sdp)) = some ([1, 3, 4], 3 / 4) ∧
    ((importanceSdpRf toySdp 2 5 [] [[3, 4]] (7 / 10) 3 false 3).map fun st => (st.best 0).cols.length) = some 4 :=
  ⟨by decide +kernel, by decide +kernel, by decide +kernel⟩

end Acv
