import Verif.Props.Levels
import Verif.Props.Cdp
import Verif.Props.SdpReg

/-!
# C124: wider intervals
-/

namespace Acv

theorem ind_mono {a b : Bool} (h : a = true → b = true) : ind a ≤ ind b := by
  cases a <;> cases b <;> simp_all [ind]

theorem sameDec_mono {yx y : ℚ} (classifier : Bool) {t t' : ℚ × ℚ} (h1 : t'.1 ≤ t.1) (h2 : t.2 ≤ t'.2) :
    sameDec classifier yx t y = true → sameDec classifier yx t' y = true := by
  unfold sameDec
  split
  · exact id
  · rw [Bool.and_eq_true, Bool.and_eq_true, decide_eq_true_eq, decide_eq_true_eq, decide_eq_true_eq, decide_eq_true_eq]
    exact fun h => ⟨h1.trans h.1, h.2.trans h2⟩

theorem both_mono {t t' : ℚ × ℚ} (h1 : t'.1 ≤ t.1) (h2 : t.2 ≤ t'.2) (y : ℚ) :
    ind (decide (t.1 ≤ y)) * ind (decide (y ≤ t.2)) ≤ ind (decide (t'.1 ≤ y)) * ind (decide (y ≤ t'.2)) := by
  refine mul_le_mul (ind_mono ?_) (ind_mono ?_) ?_ ?_
  · rw [decide_eq_true_eq, decide_eq_true_eq]; exact h1.trans
  · rw [decide_eq_true_eq, decide_eq_true_eq]; exact fun h => h.trans h2
  · unfold ind; split <;> norm_num
  · unfold ind; split <;> norm_num

/-- **C124, projected forest.** With an interval that contains the first one, the same decision probability is at least as large, the different decision
probability at most as large, and the sufficient rule is the same. -/
theorem C124_sdp (mems : List Mem) (S : List Nat) (x : Row) (yx : ℚ) (data : Nat → Row) (y : Nat → ℚ) (minSize maxDepth N : Nat) (classifier : Bool)
    {t t' : ℚ × ℚ} (h1 : t'.1 ≤ t.1) (h2 : t.2 ≤ t'.2) :
    sdpRf mems S x yx data y minSize maxDepth N classifier t ≤ sdpRf mems S x yx data y minSize maxDepth N classifier t' ∧
    ddpRf mems S x yx data y minSize maxDepth N classifier t' ≤ ddpRf mems S x yx data y minSize maxDepth N classifier t ∧
    (sdpRule mems S x yx data y minSize maxDepth N classifier t).1 ≤ (sdpRule mems S x yx data y minSize maxDepth N classifier t').1 ∧
    (sdpRule mems S x yx data y minSize maxDepth N classifier t).2 = (sdpRule mems S x yx data y minSize maxDepth N classifier t').2 := by
  refine ⟨?_, ?_, ?_, rfl⟩
  · exact cellSum_mono fun c _ i _ => ind_mono (sameDec_mono classifier h1 h2)
  · refine cellSum_mono fun c _ i _ => ?_
    split
    · exact le_rfl
    · have := both_mono h1 h2 (y i)
      linarith
  · exact cellSum_mono fun c _ i _ => ind_mono (sameDec_mono classifier h1 h2)

/-- **C124, counterfactual probabilities**: the probability of a target interval grows with the interval, for both the local and the regional version; the
divergent regional one shrinks. -/
theorem C124_cdp (mems : List Mem) (S : List Nat) (x : Row) (cond : Rule) (yx : ℚ) (data : Nat → Row) (y : Nat → ℚ) (minSize maxDepth N : Nat)
    (classifier : Bool) {t t' : ℚ × ℚ} (h1 : t'.1 ≤ t.1) (h2 : t.2 ≤ t'.2) :
    cdpRf mems S x yx t.1 t.2 data y minSize maxDepth N classifier ≤ cdpRf mems S x yx t'.1 t'.2 data y minSize maxDepth N classifier ∧
    (cdpIntv mems S cond yx t data y minSize maxDepth N classifier).1 ≤ (cdpIntv mems S cond yx t' data y minSize maxDepth N classifier).1 ∧
    (ddpIntv mems S cond yx t' data y minSize maxDepth N classifier).1 ≤ (ddpIntv mems S cond yx t data y minSize maxDepth N classifier).1 := by
  refine ⟨?_, ?_, ?_⟩
  · refine cellSum_mono fun c _ i _ => ?_
    unfold cdpHit
    split
    · exact le_rfl
    · refine ind_mono ?_
      rw [Bool.and_eq_true, Bool.and_eq_true, decide_eq_true_eq, decide_eq_true_eq, decide_eq_true_eq, decide_eq_true_eq]
      exact fun h => ⟨h1.trans h.1, h.2.trans h2⟩
  · refine cellSum_mono fun c _ i _ => ?_
    unfold cdpIntvHit
    split
    · exact le_rfl
    · exact both_mono h1 h2 _
  · refine cellSum_mono fun c _ i _ => ?_
    unfold ddpHit
    split
    · exact le_rfl
    · have := both_mono h1 h2 (y i)
      linarith

/-! ## Searches with larger probabilities -/

theorem oneLevel_mono {v v' : List Nat → ℚ} (hv : ∀ S, v S ≤ v' S) (cols : Nat) : ∀ (cands : List (List Nat)) {b b' : Best}, b.sdp ≤ b'.sdp →
    (oneLevel v cols cands b).sdp ≤ (oneLevel v' cols cands b').sdp
  | [], _, _, h => h
  | T :: cands, b, b', h => by
    refine oneLevel_mono hv cols cands (b := consider cols T (v T) b) (b' := consider cols T (v' T) b') ?_
    have := hv T
    unfold consider
    dsimp only
    split
    · exact le_rfl
    · split <;> split <;> linarith

theorem oneLoop_mono {v v' : List Nat → ℚ} (hv : ∀ S, v S ≤ v' S) (cols : Nat) (pi : ℚ) (stop : Bool) (half : Nat) :
    ∀ (levels : List (List (List Nat))) {b b' : Best}, b.sdp ≤ b'.sdp → pi ≤ (oneLoop id v cols pi stop half levels b).sdp →
    pi ≤ (oneLoop id v' cols pi stop half levels b').sdp
  | [], _, _, h, hp => hp.trans h
  | cands :: ls, b, b', h, hp => by
    have hm := oneLevel_mono hv cols cands h
    simp only [oneLoop, id] at hp ⊢
    by_cases h' : pi ≤ (oneLevel v' cols cands b').sdp
    · rw [if_pos h']
      exact h'
    · rw [if_neg h']
      rw [if_neg fun hh => h' (hh.trans hm)] at hp
      split at hp
      · exact absurd (hp.trans hm) h'
      · rename_i hs
        rw [if_neg hs]
        exact oneLoop_mono hv cols pi stop half ls hm hp

/-- **C124, minimal explanations.** When no probability is smaller, every observation that had an explanation has one, of at most as many columns or
groups. -/
theorem C124_search {cols : Nat} {order : List Nat} {C : List (List Nat)} (h : SearchArgs cols C (rfSpace cols order))
    {sdp sdp' : Nat → List Nat → ℚ} (hv : ∀ i S, sdp i S ≤ sdp' i S) (N : Nat) {pi : ℚ} (h0 : 0 < pi) (h1 : pi ≤ 1) (minimal : Nat) (stop : Bool)
    (half : Nat) :
    ∃ st st', importanceSdpRf sdp N cols order C pi minimal stop half = some st ∧ importanceSdpRf sdp' N cols order C pi minimal stop half = some st' ∧
      ∀ i < N, pi ≤ (st.best i).sdp → pi ≤ (st'.best i).sdp ∧
        ∃ co co' : List (List Nat), co.Sublist (searchPlayers C (rfSpace cols order)) ∧ co'.Sublist (searchPlayers C (rfSpace cols order)) ∧
          (st.best i).cols = co.flatten.map (↑) ∧ (st'.best i).cols = co'.flatten.map (↑) ∧ co'.length ≤ co.length := by
  obtain ⟨st, e, hst⟩ := importanceSdpRf_eq h sdp N pi minimal stop half
  obtain ⟨st', e', hst'⟩ := importanceSdpRf_eq h sdp' N pi minimal stop half
  obtain ⟨st1, e1, hr⟩ := C29_reported_partial h sdp N h0 h1 minimal stop half
  obtain ⟨st2, e2, hr'⟩ := C29_reported_partial h sdp' N h0 h1 minimal stop half
  rw [e] at e1
  rw [e'] at e2
  cases e1
  cases e2
  refine ⟨st, st', e, e', fun i hi hp => ?_⟩
  have hp' : pi ≤ (st'.best i).sdp := by
    rw [hst, batch_best finOk_id (valsOk_mask sdp N) cols pi stop half _ hi] at hp
    rw [hst', batch_best finOk_id (valsOk_mask sdp' N) cols pi stop half _ hi]
    exact oneLoop_mono (hv i) cols pi stop half _ le_rfl hp
  refine ⟨hp', ?_⟩
  obtain ⟨k, S, hk, ⟨co, c1, c2, rfl⟩, hcols, _, hval, _, _, _⟩ := hr i hi hp
  obtain ⟨k', S', _, ⟨co', c1', c2', rfl⟩, hcols', _, _, _, hless, _⟩ := hr' i hi hp'
  refine ⟨co, co', c1, c1', hcols, hcols', ?_⟩
  by_contra hlt
  push Not at hlt
  by_cases hf : co.flatten.length = cols
  · have hco : co = searchPlayers C (rfSpace cols order) := (playersOk h).full c1 hf
    have := c1'.length_le
    rw [← hco] at this
    omega
  · have h3 := hless k co.flatten hk (by omega) ⟨co, c1, c2, rfl⟩
    rw [hval hf] at hp
    have := hv i co.flatten
    linarith

/-- **C124, all sufficient explanations**: every set listed with the smaller probabilities contains one listed with the larger ones. -/
theorem C124_all {cols : Nat} {order : List Nat} {C : List (List Nat)} (h : SearchArgs cols C (rfSpace cols order))
    {v v' : List Nat → ℚ} (hv : ∀ S, v S ≤ v' S) (pi : ℚ) (minimal : Nat) :
    ∃ L L' : List (List Nat), sufficientExpl v cols order C pi minimal = some (L.map fun S => (S.map (↑), v S)) ∧
      sufficientExpl v' cols order C pi minimal = some (L'.map fun S => (S.map (↑), v' S)) ∧ ∀ S ∈ L, ∃ S' ∈ L', S' ⊆ S := by
  obtain ⟨L, e, _, hL, _⟩ := C32_all_sufficient h v pi minimal
  obtain ⟨L', e', _, hL', _⟩ := C32_all_sufficient h v' pi minimal
  refine ⟨L, L', e, e', fun S hS => ?_⟩
  obtain ⟨⟨k, hk, hc⟩, hvS, _⟩ := (hL S).1 hS
  obtain ⟨T, hT, hs⟩ := minimal_inside (playersOk h) minimal v' pi k S hk hc (hvS.trans (hv S))
  exact ⟨T, (hL' T).2 hT, hs⟩

/-- **C124, minimal explanations of the projected forest.** Widening the interval of every observation keeps an explanation, of at most as many columns or
groups. -/
theorem C124_forest {cols : Nat} {order : List Nat} {C : List (List Nat)} (h : SearchArgs cols C (rfSpace cols order))
    (mems : List Mem) (X : Nat → Row) (yX : Nat → ℚ) (data : Nat → Row) (y : Nat → ℚ) (minSize maxDepth M : Nat) (classifier : Bool)
    {t t' : Nat → ℚ × ℚ} (ht : ∀ i, (t' i).1 ≤ (t i).1 ∧ (t i).2 ≤ (t' i).2) (N : Nat) {pi : ℚ} (h0 : 0 < pi) (h1 : pi ≤ 1) (minimal : Nat)
    (stop : Bool) (half : Nat) :
    ∃ st st', importanceSdpRf (fun i S => sdpRf mems S (X i) (yX i) data y minSize maxDepth M classifier (t i)) N cols order C pi minimal stop half = some st ∧
      importanceSdpRf (fun i S => sdpRf mems S (X i) (yX i) data y minSize maxDepth M classifier (t' i)) N cols order C pi minimal stop half = some st' ∧
      ∀ i < N, pi ≤ (st.best i).sdp → pi ≤ (st'.best i).sdp ∧
        ∃ co co' : List (List Nat), co.Sublist (searchPlayers C (rfSpace cols order)) ∧ co'.Sublist (searchPlayers C (rfSpace cols order)) ∧
          (st.best i).cols = co.flatten.map (↑) ∧ (st'.best i).cols = co'.flatten.map (↑) ∧ co'.length ≤ co.length :=
  C124_search h (fun i S => (C124_sdp mems S (X i) (yX i) data y minSize maxDepth M classifier (ht i).1 (ht i).2).1) N h0 h1 minimal stop half

/-! ## The estimators of tree ensembles for regression -/

/-- The claim for the discrete estimator: a larger tolerance gives a probability at least as large. -/
def C124_claim : Prop :=
  ∀ (t : TreeArr) (m : Nat) (y : Row → ℚ) (data : List Row) (S : List Nat) (x : Row) (tX tX' : ℚ), WellFormed t m →
    (∀ z, ensemblePredict [t] none none (fun _ => 0) (full z) 0 = some (y z)) → (∀ s ∈ S, s < m) → OffSplits t x → (∀ z ∈ data, OffSplits t z) →
    tX ≤ tX' → sdpRegCatCy [t] m y tX data S x ≤ sdpRegCatCy [t] m y tX' data S x

/-- **C124 holds of the discrete estimator** as long as, at the larger tolerance, a row is distant or the mean of `y(z)² - 2 y(x) y(z)` is not 0. Missing
(false): the remaining case, see `C124_reg_false`. -/
theorem C124_reg_partial {ts : List TreeArr} {m : Nat} (hts : ∀ t ∈ ts, WellFormed t m) {y : Row → ℚ}
    (hy : ∀ z, ensemblePredict ts none none (fun _ => 0) (full z) 0 = some (y z)) {tX tX' : ℚ} (ht : tX ≤ tX') {data : List Row} {S : List Nat}
    (hS : ∀ s ∈ S, s < m) {x : Row} (hx : ∀ t ∈ ts, OffSplits t x) (hd : ∀ t ∈ ts, ∀ z ∈ data, OffSplits t z)
    (h : (∃ z ∈ matching S x data, tX' < (y z - y x) ^ 2) ∨ ((matching S x data).map fun z => y z * (y z - 2 * y x)).sum ≠ 0) :
    sdpRegCatCy ts m y tX data S x ≤ sdpRegCatCy ts m y tX' data S x := by
  have e' := (C69_frequency_partial hts rfl hy tX' hS hx hd).1 h
  have e := (C69_frequency_partial hts rfl hy tX hS hx hd).1 (h.imp_left fun ⟨z, hz, hh⟩ => ⟨z, hz, ht.trans_lt hh⟩)
  rw [e, e', closeShare_eq, closeShare_eq]
  refine div_le_div_of_nonneg_right ?_ (Nat.cast_nonneg _)
  rw [Nat.cast_le, ← List.countP_eq_length_filter, ← List.countP_eq_length_filter]
  refine List.countP_mono_left fun z _ hz => ?_
  rw [close_not_far] at hz ⊢
  rw [decide_eq_true_eq] at hz ⊢
  exact hz.trans ht

/-- The stump of the counterexample predicts 1 or 3; three rows have output 1, one has 3. -/
def dropData : List Row := [row2 0 0, row2 0 0, row2 0 0, row2 0 1]

/-- **C124 is false of the discrete estimator**: for an observation with output 1 and three quarters of the rows on its output, raising the tolerance from 1 to
4, where every row is close, lowers the probability from 3/4 to 0. -/
theorem C124_reg_false : ¬ C124_claim := by
  intro h
  have h1 := h (stumpAt 1 (1 / 2) 1 3) 2 (fun z => if z 1 ≤ 1 / 2 then 1 else 3) dropData [0] (row2 0 0) 1 4 (stumpAt_wf (by norm_num) _ _ _)
    (by
      intro z
      rw [predict_treeTotal (m := 2) (by simp [stumpAt_wf])]
      simp [treeTotal, stumpAt_leaf])
    (by simp) (stumpAt_off (by decide +kernel))
    (by
      intro z hz
      simp only [dropData, List.mem_cons, List.not_mem_nil, or_false] at hz
      rcases hz with rfl | rfl | rfl | rfl <;> exact stumpAt_off (by decide +kernel))
    (by norm_num)
  revert h1
  decide +kernel

/-- The Python versions, discrete and with leaves, drop from 3/4 to 0 too. -/
theorem C124_reg_drops :
    sdpRegCatPy [stumpAt 1 (1 / 2) 1 3] 2 (fun z => if z 1 ≤ 1 / 2 then 1 else 3) 1 dropData [0] (row2 0 0) = 3 / 4 ∧
    sdpRegCatPy [stumpAt 1 (1 / 2) 1 3] 2 (fun z => if z 1 ≤ 1 / 2 then 1 else 3) 4 dropData [0] (row2 0 0) = 0 ∧
    sdpRegPy [stumpAt 1 (1 / 2) 1 3] 2 (fun z => if z 1 ≤ 1 / 2 then 1 else 3) 1 dropData [0] (row2 0 0) = 3 / 4 ∧
    sdpRegPy [stumpAt 1 (1 / 2) 1 3] 2 (fun z => if z 1 ≤ 1 / 2 then 1 else 3) 4 dropData [0] (row2 0 0) = 0 := by
  decide +kernel

/-- The hypothesis of `C124_reg_partial` holds of the same data at the tolerances 1 and 2: one row is distant. -/
example : (∃ z ∈ matching [0] (row2 0 0) dropData,
      (2 : ℚ) < ((fun z : Row => if z 1 ≤ 1 / 2 then (1 : ℚ) else 3) z - (fun z : Row => if z 1 ≤ 1 / 2 then (1 : ℚ) else 3) (row2 0 0)) ^ 2) := by
  refine ⟨row2 0 1, ?_, by decide +kernel⟩
  rw [matching_eq, List.mem_filter]
  exact ⟨by simp [dropData], by decide +kernel⟩

/-- Widening the interval from [1, 1] to [0, 1] on the forest of C21. -/
example : sdpRf [Mem.ofTree ladderTree leafJunk] [0, 2] (diag 4) 1 diag (fun i => if i < 3 then 1 else if i < 4 then 0 else 5) 1 3 10 false (1, 1) = 1 / 4 ∧
    sdpRf [Mem.ofTree ladderTree leafJunk] [0, 2] (diag 4) 1 diag (fun i => if i < 3 then 1 else if i < 4 then 0 else 5) 1 3 10 false (0, 1) = 1 / 2 := by
  decide +kernel

end Acv
