import Verif.Model.Marginal
import Verif.Props.Search

/-! # C86: marginal SDP and its searches -/

namespace Acv

/-- The rows of the background with the columns of `S` taken from `x`. -/
def Mixed (S : List Nat) (x : Row) (mix : Row → Row) : Prop := ∀ z, (∀ c ∈ S, mix z c = x c) ∧ ∀ c, c ∉ S → mix z c = z c

theorem Mixed.eq {S : List Nat} {x : Row} {mix : Row → Row} (h : Mixed S x mix) : mix = fixCols S x := by
  funext z c
  unfold fixCols
  split
  · exact (h z).1 c ‹_›
  · exact (h z).2 c ‹_›

theorem marginalMean_spec {test : Row → Bool} {d : Nat} {rg : List Row} (hrg : rg ≠ []) {S : List Nat} (hS : S.length ≠ d) {x : Row}
    {mix : Row → Row} (hmix : Mixed S x mix) :
    marginalMean test d rg S x = some (((rg.filter fun z => test (mix z)).length : ℚ) / rg.length) := by
  have hl : (rg.length : ℚ) ≠ 0 := by exact_mod_cast (List.length_pos_iff.2 hrg).ne'
  unfold marginalMean npDiv
  rw [if_pos hS, if_neg hl, hmix.eq]

theorem marginalMean_range {test : Row → Bool} {d : Nat} {rg : List Row} {S : List Nat} {x : Row} {p : ℚ}
    (h : marginalMean test d rg S x = some p) : 0 ≤ p ∧ p ≤ 1 := by
  unfold marginalMean npDiv at h
  split at h
  · split at h
    · cases h
    · rename_i hl
      cases h
      have hpos : (0 : ℚ) < rg.length := lt_of_le_of_ne (Nat.cast_nonneg _) (Ne.symm hl)
      refine ⟨div_nonneg (Nat.cast_nonneg _) hpos.le, ?_⟩
      rw [div_le_iff₀ hpos, one_mul]
      exact_mod_cast List.length_filter_le _ _
  · cases h
    exact ⟨zero_le_one, le_refl 1⟩

/-- **C86, classifier.** The marginal SDP is the frequency, in the background with the columns of `S` fixed, of the class of `x`. -/
theorem C86_msdp_clf {α : Type} [DecidableEq α] (predict : Row → α) {d : Nat} {rg : List Row} (hrg : rg ≠ []) {S : List Nat}
    (hS : S.length ≠ d) {x : Row} {mix : Row → Row} (hmix : Mixed S x mix) :
    msdpClf predict d rg S x = some (((rg.filter fun z => decide (predict (mix z) = predict x)).length : ℚ) / rg.length) :=
  marginalMean_spec hrg hS hmix

/-- **C86, regression.** The marginal SDP is the frequency, in the background with the columns of `S` fixed, of the rows whose prediction is
within the threshold of that of `x`. -/
theorem C86_msdp_reg (predict : Row → ℚ) (thr : ℚ) {d : Nat} {rg : List Row} (hrg : rg ≠ []) {S : List Nat}
    (hS : S.length ≠ d) {x : Row} {mix : Row → Row} (hmix : Mixed S x mix) :
    msdpReg predict thr d rg S x = some (((rg.filter fun z => decide (|predict (mix z) - predict x| ≤ thr)).length : ℚ) / rg.length) :=
  marginalMean_spec hrg hS hmix

/-- **C86, range.** Both are probabilities, and 1 for all columns. -/
theorem C86_msdp_range {α : Type} [DecidableEq α] (predict : Row → α) (predictR : Row → ℚ) (thr : ℚ) (d : Nat) (rg : List Row) (S : List Nat)
    (x : Row) :
    (∀ p, msdpClf predict d rg S x = some p → 0 ≤ p ∧ p ≤ 1) ∧ (∀ p, msdpReg predictR thr d rg S x = some p → 0 ≤ p ∧ p ≤ 1) ∧
    (S.length = d → msdpClf predict d rg S x = some 1 ∧ msdpReg predictR thr d rg S x = some 1) := by
  refine ⟨fun p h => marginalMean_range h, fun p h => marginalMean_range h, fun h => ?_⟩
  unfold msdpClf msdpReg marginalMean
  rw [if_neg (not_not.2 h)]
  exact ⟨rfl, by rw [if_neg (not_not.2 h)]⟩

theorem marginalMean_one {test : Row → Bool} {d : Nat} {rg : List Row} (hrg : rg ≠ []) {S : List Nat} {x : Row}
    (h : ∀ z, test (fixCols S x z) = true) : marginalMean test d rg S x = some 1 := by
  have hl : (rg.length : ℚ) ≠ 0 := by exact_mod_cast (List.length_pos_iff.2 hrg).ne'
  unfold marginalMean npDiv
  rw [if_neg hl]
  split
  · rw [List.filter_eq_self.2 fun z _ => h z, div_self hl]
  · rfl

/-- **C86, sufficiency.** If the model reads no column outside `S`, the marginal SDP of `S` is 1 (for a regression, with a threshold of at
least 0). -/
theorem C86_sufficient {α : Type} [DecidableEq α] {predict : Row → α} {predictR : Row → ℚ} {thr : ℚ} (ht : 0 ≤ thr) {d : Nat} {rg : List Row}
    (hrg : rg ≠ []) {S : List Nat} (h : ∀ y z : Row, (∀ c ∈ S, y c = z c) → predict y = predict z)
    (h' : ∀ y z : Row, (∀ c ∈ S, y c = z c) → predictR y = predictR z) (x : Row) :
    msdpClf predict d rg S x = some 1 ∧ msdpReg predictR thr d rg S x = some 1 := by
  have hfix : ∀ z, ∀ c ∈ S, fixCols S x z c = x c := fun z c hc => by unfold fixCols; rw [if_pos hc]
  constructor
  · exact marginalMean_one hrg fun z => decide_eq_true (h _ _ (hfix z))
  · refine marginalMean_one hrg fun z => decide_eq_true ?_
    rw [h' _ _ (hfix z), sub_self, abs_zero]
    exact ht

/-- **C86, threshold.** A larger threshold gives a marginal SDP at least as large. -/
theorem C86_threshold (predict : Row → ℚ) {t t' : ℚ} (htt : t ≤ t') (d : Nat) (rg : List Row) (S : List Nat) (x : Row) {p p' : ℚ}
    (h : msdpReg predict t d rg S x = some p) (h' : msdpReg predict t' d rg S x = some p') : p ≤ p' := by
  unfold msdpReg marginalMean npDiv at h h'
  split at h
  · rename_i hS
    rw [if_pos hS] at h'
    split at h
    · cases h
    · rename_i hl
      rw [if_neg hl] at h'
      cases h
      cases h'
      have hpos : (0 : ℚ) < rg.length := lt_of_le_of_ne (Nat.cast_nonneg _) (Ne.symm hl)
      refine div_le_div_of_nonneg_right ?_ hpos.le
      rw [← List.countP_eq_length_filter, ← List.countP_eq_length_filter]
      refine Nat.cast_le.2 (List.countP_mono_left fun z _ hz => ?_)
      rw [decide_eq_true_eq] at hz ⊢
      exact hz.trans htt
  · rename_i hS
    rw [if_neg hS] at h'
    cases h
    cases h'
    exact le_refl 1

/-- **C86, not monotone.** More columns can make the marginal SDP smaller: the model is an exclusive or. -/
theorem C86_not_monotone : ∃ (predict : Row → ℚ) (rg : List Row) (x : Row),
    msdpClf predict 3 rg [] x = some 1 ∧ msdpClf predict 3 rg [0] x = some 0 := by
  refine ⟨fun z => if z 0 = z 1 then 1 else 0, [fun _ => 1], fun _ => 0, ?_, ?_⟩ <;> decide +kernel

/-! ## The searches -/

theorem msdpSearch_eq {cols : Nat} {C : List (List Nat)} {space : List Nat} (h15 : (searchPlayers C space).length ≤ 15)
    (sdp : Nat → List Nat → ℚ) (N : Nat) (pi : ℚ) (minimal : Nat) (stop : Bool) (half : Nat) :
    msdpSearch sdp N cols C space pi minimal stop half =
      some (searchLoop clearTail (fun R S => R.map fun i => sdp i S) cols pi stop half ((List.range' minimal
        ((searchPlayers C space).length + 1 - minimal)).map (levelOf (searchPlayers C space))) (Batch.init N)) := by
  unfold msdpSearch
  rw [levelsRf_eq _ _ h15]
  rfl

/-- **C86, search.** For a value function that is 1 on the set of all columns, and at most 15 players: the search answers; a sample reported
with a probability of at least `pi` gets a set that has this probability, no searched set of fewer players reaches `pi`, and no set of as many
players has a larger probability; a sample reported below `pi` has, without `stop`, no searched set that reaches `pi`. -/
theorem C86_search {cols : Nat} {order : List Nat} {C : List (List Nat)} (h : SearchArgs cols C (msdpSpace cols order))
    (h15 : (searchPlayers C (msdpSpace cols order)).length ≤ 15) {v : Nat → List Nat → Option ℚ} {w : Nat → List Nat → ℚ} {N : Nat}
    (hv : ∀ i < N, ∀ S, v i S = some (w i S)) (hfull : ∀ i < N, ∀ S : List Nat, S.length = cols → w i S = 1)
    {pi : ℚ} (h0 : 0 < pi) (h1 : pi ≤ 1) (minimal : Nat) (stop : Bool) (half : Nat) (hhalf : 0 < half) :
    ∃ st, importanceMsdp v N cols order C pi minimal stop half = some st ∧
      (∀ i < N, pi ≤ (st.best i).sdp → ∃ k S, minimal ≤ k ∧ Candidate (searchPlayers C (msdpSpace cols order)) k S ∧
        (st.best i).cols = S.map (↑) ∧ (st.best i).sdp = w i S ∧
        (∀ k' S', minimal ≤ k' → k' < k → Candidate (searchPlayers C (msdpSpace cols order)) k' S' → w i S' < pi) ∧
        ∀ S', Candidate (searchPlayers C (msdpSpace cols order)) k S' → w i S' ≤ (st.best i).sdp) ∧
      (∀ i < N, (st.best i).sdp < pi → stop = false → ∀ k S, minimal ≤ k → Candidate (searchPlayers C (msdpSpace cols order)) k S →
        w i S < pi) := by
  have hw : ∀ i < N, ∀ S, (v i S).getD 0 = w i S := fun i hi S => by rw [hv i hi S]; rfl
  refine ⟨_, msdpSearch_eq h15 (fun i S => (v i S).getD 0) N pi minimal stop half, fun i hi hpi => ?_, fun i hi hpi hstop k S hk hS => ?_⟩
  · have hb := batch_best finOk_clearTail (valsOk_map (fun i S => (v i S).getD 0) N) cols pi stop half ((List.range' minimal
      ((searchPlayers C (msdpSpace cols order)).length + 1 - minimal)).map (levelOf (searchPlayers C (msdpSpace cols order)))) hi
    rw [hb] at hpi ⊢
    obtain ⟨k, S, a1, a2, a3, _, a5, a6, a7, a8⟩ := sample_reports finOk_clearTail (playersOk h) (fun S => (v i S).getD 0) h0 h1 minimal _ stop
      half hpi
    replace a5 := fun hl => (a5 hl).trans (hw i hi S)
    replace a7 : ∀ k' S', minimal ≤ k' → k' < k → Candidate (searchPlayers C (msdpSpace cols order)) k' S' → w i S' < pi :=
      fun k' S' b1 b2 b3 => hw i hi S' ▸ a7 k' S' b1 b2 b3
    have hs : (oneLoop clearTail (fun S => (v i S).getD 0) cols pi stop half ((List.range' minimal
        ((searchPlayers C (msdpSpace cols order)).length + 1 - minimal)).map (levelOf (searchPlayers C (msdpSpace cols order)))) Best.init).sdp
        = w i S := by
      by_cases hl : S.length = cols
      · exact (a6 hl).trans (hfull i hi S hl).symm
      · exact a5 hl
    exact ⟨k, S, a1, a2, a3, hs, a7, fun S' hS' => by rw [hs, ← hw i hi S', ← hw i hi S]; exact a8 S' hS'⟩
  · have hb := batch_best finOk_clearTail (valsOk_map (fun i S => (v i S).getD 0) N) cols pi stop half ((List.range' minimal
      ((searchPlayers C (msdpSpace cols order)).length + 1 - minimal)).map (levelOf (searchPlayers C (msdpSpace cols order)))) hi
    rw [hb] at hpi
    have := hS.le
    have := sample_none finOk_clearTail (playersOk h) (fun S => (v i S).getD 0) h0 h1 minimal _ stop half hpi hk (by omega) hS (Or.inl hstop) hhalf
    rwa [← hw i hi S]

/-- **C86, the two searches of the library** satisfy the hypotheses of `C86_search` on a non-empty background. -/
theorem C86_search_values {α : Type} [DecidableEq α] (predict : Row → α) (predictR : Row → ℚ) (thr : ℚ) (cols : Nat) {rg : List Row}
    (hrg : rg ≠ []) (X : Nat → Row) :
    (∃ w : Nat → List Nat → ℚ, (∀ i S, msdpClf predict cols rg S (X i) = some (w i S)) ∧ ∀ i (S : List Nat), S.length = cols → w i S = 1) ∧
    (∃ w : Nat → List Nat → ℚ, (∀ i S, msdpReg predictR thr cols rg S (X i) = some (w i S)) ∧ ∀ i (S : List Nat), S.length = cols → w i S = 1) := by
  have key : ∀ test : Nat → Row → Bool, ∃ w : Nat → List Nat → ℚ, (∀ i S, marginalMean (test i) cols rg S (X i) = some (w i S)) ∧
      ∀ i (S : List Nat), S.length = cols → w i S = 1 := by
    intro test
    refine ⟨fun i S => if S.length ≠ cols then ((rg.filter fun z => test i (fixCols S (X i) z)).length : ℚ) / rg.length else 1, fun i S => ?_,
      fun i S h => if_neg (not_not.2 h)⟩
    have hl : (rg.length : ℚ) ≠ 0 := by exact_mod_cast (List.length_pos_iff.2 hrg).ne'
    unfold marginalMean npDiv
    rw [if_neg hl]
    by_cases hS : S.length ≠ cols
    · simp only [if_pos hS]
    · simp only [if_neg hS]
  exact ⟨key fun i z => decide (predict z = predict (X i)), key fun i z => decide (|predictR z - predictR (X i)| ≤ thr)⟩

/-- At most 15 players: always when there are no groups. -/
theorem C86_players_15 (cols : Nat) (order : List Nat) :
    (searchPlayers [[]] (msdpSpace cols order)).length ≤ 15 := by
  have h0 : searchPlayers [[]] (msdpSpace cols order) = (msdpSpace cols order).map ([·]) := rfl
  rw [h0, List.length_map]
  unfold msdpSpace
  split
  · exact List.length_take_le _ _
  · rw [List.length_range]; omega

example : msdpClf (fun z => decide (z 0 = 1)) 3 [fun _ => 0, fun _ => 1] [0] (fun _ => 1) = some 1 ∧
    msdpReg (fun z => z 0 + z 1) (1 / 2) 3 [fun _ => 0, fun _ => 1] [0] (fun _ => 1) = some (1 / 2) := by decide +kernel

/-- A model of two columns out of three: the search finds them. -/
def exMsdpModel : Row → ℚ := fun z => if z 0 = 1 ∧ z 2 = 1 then 1 else 0

def exMsdpRg : List Row := [fun _ => 0, fun c => c, fun c => 1 - c]

example : SearchArgs 3 [[]] (msdpSpace 3 []) ∧
    ∃ st, importanceMsdp (fun _ S => msdpClf exMsdpModel 3 exMsdpRg S fun _ => 1) 1 3 [] [[]] (9 / 10) 1 false 2 = some st ∧
      (st.best 0).sdp = 1 ∧ (st.best 0).cols = [0, 2] := by
  refine ⟨⟨by decide, by decide, by decide, by decide⟩, _, rfl, ?_, ?_⟩ <;> decide +kernel

end Acv
