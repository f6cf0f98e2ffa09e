import Verif.Model.SearchReg
import Verif.Props.SdpReg

/-!
# C111: the search of sufficient explanations of a regression forest
-/

namespace Acv

section

variable (ts : List TreeArr) (m : Nat) (y : Row → ℚ) (tX : ℚ) (data X : List Row) (cols : Nat)

/-- A value that the code computes for observation `i` and the columns `S`, whatever the contents of the three arrays. -/
def RegValue (i : Nat) (S : List Nat) (v : ℚ) : Prop := ∃ N : Norms, v = (regObs ts m y tX data S N (X.getD i fun _ => 0)).2

theorem regScanSet_table (S : List Nat) : ∀ (R : List Nat), R.Nodup → ∀ (N : Norms), ∃ (f : Nat → ℚ) (N' : Norms),
    (∀ i, RegValue ts m y tX data X i S (f i)) ∧ ∀ best, regScanSet ts m y tX data X cols R (N, best) S = (N', scanRows cols S R (R.map f) best) := by
  intro R
  induction R with
  | nil => exact fun _ N => ⟨fun i => (regObs ts m y tX data S N (X.getD i fun _ => 0)).2, N, fun i => ⟨N, rfl⟩, fun _ => rfl⟩
  | cons a R ih =>
    intro hR N
    obtain ⟨ha, hR'⟩ := List.nodup_cons.1 hR
    obtain ⟨f, N', h1, h2⟩ := ih hR' (regObs ts m y tX data S N (X.getD a fun _ => 0)).1
    refine ⟨fun i => if i = a then (regObs ts m y tX data S N (X.getD a fun _ => 0)).2 else f i, N', ?_, ?_⟩
    · intro i
      by_cases h : i = a
      · subst h; exact ⟨N, if_pos rfl⟩
      · simpa [h] using h1 i
    · intro best
      have e : (R.map fun i => if i = a then (regObs ts m y tX data S N (X.getD a fun _ => 0)).2 else f i) = R.map f :=
        List.map_congr_left fun i hi => if_neg (by rintro rfl; exact ha hi)
      have := h2 (upd best a (consider cols S (regObs ts m y tX data S N (X.getD a fun _ => 0)).2 (best a)))
      unfold regScanSet at this ⊢
      rw [List.foldl_cons]
      refine this.trans ?_
      rw [List.map_cons, e]
      simp only [if_true]
      rfl

theorem regCands_table (R : List Nat) (hR : R.Nodup) : ∀ (cands : List (List Nat)), cands.Nodup → ∀ (N : Norms), ∃ (v : Nat → List Nat → ℚ) (N' : Norms),
    (∀ i S, RegValue ts m y tX data X i S (v i S)) ∧ ∀ best, cands.foldl (regScanSet ts m y tX data X cols R) (N, best) =
      (N', cands.foldl (fun best S => scanRows cols S R (R.map fun i => v i S) best) best) := by
  intro cands
  induction cands with
  | nil => exact fun _ N => ⟨fun i S => (regObs ts m y tX data S N (X.getD i fun _ => 0)).2, N, fun i S => ⟨N, rfl⟩, fun _ => rfl⟩
  | cons S0 cands ih =>
    intro hc N
    obtain ⟨hS, hc'⟩ := List.nodup_cons.1 hc
    obtain ⟨f, N1, h1, h2⟩ := regScanSet_table ts m y tX data X cols S0 R hR N
    obtain ⟨v, N', h3, h4⟩ := ih hc' N1
    refine ⟨fun i S => if S = S0 then f i else v i S, N', ?_, ?_⟩
    · intro i S
      by_cases h : S = S0
      · subst h; simpa using h1 i
      · simpa [h] using h3 i S
    · intro best
      rw [List.foldl_cons, List.foldl_cons, h2, h4]
      simp only [if_true]
      congr 1
      exact foldl_ext_mem _ _ _ (fun S hS' b => by
        have : S ≠ S0 := by rintro rfl; exact hS hS'
        simp only [if_neg this]) _

theorem searchLoop_vals_congr {v w : Nat → List Nat → ℚ} (pi : ℚ) (stop : Bool) (half : Nat) : ∀ (levels : List (List (List Nat))) (st : Batch),
    (∀ i, ∀ S ∈ levels.flatten, v i S = w i S) →
    searchLoop id (fun R S => R.map fun i => v i S) cols pi stop half levels st = searchLoop id (fun R S => R.map fun i => w i S) cols pi stop half levels st := by
  intro levels
  induction levels with
  | nil => intro _ _; rfl
  | cons cands ls ih =>
    intro st h
    have hl : scanLevel id (fun R S => R.map fun i => v i S) cols pi cands st = scanLevel id (fun R S => R.map fun i => w i S) cols pi cands st := by
      unfold scanLevel
      congr 2
      exact foldl_ext_mem _ _ _ (fun S hS b => by
        have : (st.R.map fun i => v i S) = st.R.map fun i => w i S :=
          List.map_congr_left fun i _ => h i S (by rw [List.flatten_cons]; exact List.mem_append_left _ hS)
        simp only [this]) _
    unfold searchLoop
    simp only [hl]
    split_ifs
    · rfl
    · exact ih _ fun i S hS => h i S (by rw [List.flatten_cons]; exact List.mem_append_right _ hS)

/-- The search is the search of `Search` on a table of values that the code computes. -/
theorem regSearchLoop_table (pi : ℚ) (stop : Bool) (half : Nat) : ∀ (levels : List (List (List Nat))), levels.flatten.Nodup →
    ∀ (N : Norms) (st : Batch), st.R.Nodup → ∃ v : Nat → List Nat → ℚ, (∀ i S, RegValue ts m y tX data X i S (v i S)) ∧
      regSearchLoop ts m y tX data X cols pi stop half levels N st = searchLoop id (fun R S => R.map fun i => v i S) cols pi stop half levels st := by
  intro levels
  induction levels with
  | nil => exact fun _ N st _ => ⟨fun i S => (regObs ts m y tX data S N (X.getD i fun _ => 0)).2, fun i S => ⟨N, rfl⟩, rfl⟩
  | cons cands ls ih =>
    intro hl N st hR
    rw [List.flatten_cons, List.nodup_append] at hl
    obtain ⟨hc, hls, hdis⟩ := hl
    obtain ⟨v0, N1, h1, h2⟩ := regCands_table ts m y tX data X cols st.R hR cands hc N
    have hlev : closeLevel id pi { st with best := (cands.foldl (regScanSet ts m y tX data X cols st.R) (N, st.best)).2 } =
        scanLevel id (fun R S => R.map fun i => v0 i S) cols pi cands st := by
      rw [h2]; rfl
    have hR' : (scanLevel id (fun R S => R.map fun i => v0 i S) cols pi cands st).R.Nodup := by
      unfold scanLevel
      rw [closeLevel_R]
      · exact hR.filter _
      · exact hR
    obtain ⟨v1, h3, h4⟩ := ih hls N1 _ hR'
    refine ⟨fun i S => if S ∈ cands then v0 i S else v1 i S, ?_, ?_⟩
    · intro i S
      by_cases h : S ∈ cands
      · simpa [h] using h1 i S
      · simpa [h] using h3 i S
    · have e1 : scanLevel id (fun R S => R.map fun i => if S ∈ cands then v0 i S else v1 i S) cols pi cands st =
          scanLevel id (fun R S => R.map fun i => v0 i S) cols pi cands st := by
        unfold scanLevel
        congr 2
        exact foldl_ext_mem _ _ _ (fun S hS b => by simp only [if_pos hS]) _
      have e2 := searchLoop_vals_congr cols (v := fun i S => if S ∈ cands then v0 i S else v1 i S) (w := v1) pi stop half ls
        (scanLevel id (fun R S => R.map fun i => v0 i S) cols pi cands st) (fun i S hS => if_neg fun h => hdis S h S hS rfl)
      unfold regSearchLoop searchLoop
      simp only [hlev, e1]
      rw [h2]
      split_ifs
      · rfl
      · rw [e2]; exact h4

end

/-- **C111, any forest**: the search answers, and there is a table of values, each computed by the code for its observation and set of
columns with some contents of the arrays `norm`, such that each observation reported at level `pi` gets the columns of a set
with the reported value, while no explored set of smaller size reaches `pi` and none of the same size has a larger value; the
importance of a column is the fraction of observations reported with it. -/
theorem C111_reported_partial (ts : List TreeArr) (y : Row → ℚ) (tX : ℚ) (data X : List Row) {cols : Nat} {C : List (List Nat)}
    (h : SearchArgs cols C (List.range cols)) (h15 : (searchPlayers C (List.range cols)).length ≤ 15) {pi : ℚ} (h0 : 0 < pi) (h1 : pi ≤ 1)
    (minimal : Nat) (stop : Bool) (half : Nat) :
    ∃ (st : Batch) (v : Nat → List Nat → ℚ), importanceSdpReg ts y tX data X cols C pi minimal stop half = some st ∧
      (∀ i S, RegValue ts (searchPlayers C (List.range cols)).length y tX data X i S (v i S)) ∧
      (∀ i < X.length, pi ≤ (st.best i).sdp → Reports (searchPlayers C (List.range cols)) cols minimal (v i) pi (st.best i)) ∧
      ∀ j, st.importance X.length j = reportedFraction st.best X.length pi j ∧ 0 ≤ st.importance X.length j ∧ st.importance X.length j ≤ 1 := by
  have hp := playersOk h
  have hnd : ((List.range' minimal ((searchPlayers C (List.range cols)).length + 1 - minimal)).map (levelOf (searchPlayers C (List.range cols)))).flatten.Nodup :=
    (levels_pairwise hp _ _).imp (by rintro a b hab rfl; exact hab (List.Subset.refl _))
  obtain ⟨v, hv, e⟩ := regSearchLoop_table ts (searchPlayers C (List.range cols)).length y tX data X cols pi stop half _ hnd Norms.zero
    (Batch.init X.length) List.nodup_range
  unfold importanceSdpReg
  rw [levelsRf_eq _ _ h15]
  refine ⟨_, v, rfl, hv, ?_, ?_⟩
  · intro i hi hpi
    simp only [e] at hpi ⊢
    rw [batch_best finOk_id (valsOk_map _ X.length) cols pi stop half _ hi] at hpi ⊢
    exact sample_reports finOk_id hp (v i) h0 h1 minimal _ stop half hpi
  · intro j
    simp only [e]
    rw [frequency_of_nodup finOk_id (valsOk_map _ X.length) cols pi stop half hp]
    exact ⟨rfl, reportedFraction_bounds _ _ _ _⟩

/-- **C111, one tree**: the result is that of the search on the values of `compute_sdp_reg` (without groups). -/
theorem C111_single (t : TreeArr) (y : Row → ℚ) (tX : ℚ) (data X : List Row) {cols : Nat} {C : List (List Nat)}
    (h : SearchArgs cols C (List.range cols)) (h15 : (searchPlayers C (List.range cols)).length ≤ 15) (pi : ℚ)
    (minimal : Nat) (stop : Bool) (half : Nat) :
    importanceSdpReg [t] y tX data X cols C pi minimal stop half = importanceSdpReg1 t y tX data X cols C pi minimal stop half := by
  have hp := playersOk h
  have hnd : ((List.range' minimal ((searchPlayers C (List.range cols)).length + 1 - minimal)).map (levelOf (searchPlayers C (List.range cols)))).flatten.Nodup :=
    (levels_pairwise hp _ _).imp (by rintro a b hab rfl; exact hab (List.Subset.refl _))
  obtain ⟨v, hv, e⟩ := regSearchLoop_table [t] (searchPlayers C (List.range cols)).length y tX data X cols pi stop half _ hnd Norms.zero
    (Batch.init X.length) List.nodup_range
  unfold importanceSdpReg importanceSdpReg1 globalSdpReg
  rw [levelsRf_eq _ _ h15]
  simp only [Option.map_some]
  rw [e]
  congr 1
  refine searchLoop_vals_congr cols pi stop half _ _ fun i S _ => ?_
  obtain ⟨N, hN⟩ := hv i S
  rw [hN]
  unfold globalRegValue sdpRegCy regLoop
  simp only [List.headD_cons]
  unfold regObs
  simp only [regGroup_single t _ S _ _ _ _ (fun _ => 0), Norms.zero]

/-- The claim: the report of an observation does not depend on the other observations of the call, and the reported value of a set
that does not have all columns is the one `compute_sdp_reg` returns for this observation and this set. -/
def C111_claim : Prop := ∀ (ts : List TreeArr) (y : Row → ℚ) (tX : ℚ) (data X : List Row) (cols : Nat) (pi : ℚ) (st : Batch),
  (∀ t ∈ ts, WellFormed t cols) → importanceSdpReg ts y tX data X cols [[]] pi 0 false cols = some st →
  (∀ i j x, X[i]? = some x → X[j]? = some x → st.best i = st.best j) ∧
  ∀ i x (S : List Nat), X[i]? = some x → pi ≤ (st.best i).sdp → (st.best i).cols = S.map (↑) → S.length ≠ cols →
    sdpRegCy ts cols y tX data S [x] = [(st.best i).sdp]

/-- **C111 is false of two stumps**: of two equal observations the first is reported with column 1 and the value 1209/935, the second with
both columns and the value 1; and for column 1 `compute_sdp_reg` gives 697/605. -/
theorem C111_false : ¬ C111_claim ∧
    ∃ st, importanceSdpReg regForest regOut 1 regData [row2 1 1, row2 1 1] 2 [[]] (9 / 10) 0 false 2 = some st ∧
      (st.best 0).cols = [1] ∧ (st.best 0).sdp = 1209 / 935 ∧ (st.best 1).cols = [0, 1] ∧ (st.best 1).sdp = 1 ∧
      sdpRegCy regForest 2 regOut 1 regData [1] [row2 1 1] = [697 / 605] := by
  have hst : ∃ st, importanceSdpReg regForest regOut 1 regData [row2 1 1, row2 1 1] 2 [[]] (9 / 10) 0 false 2 = some st ∧
      (st.best 0).cols = [1] ∧ (st.best 0).sdp = 1209 / 935 ∧ (st.best 1).cols = [0, 1] ∧ (st.best 1).sdp = 1 ∧
      sdpRegCy regForest 2 regOut 1 regData [1] [row2 1 1] = [697 / 605] :=
    ⟨_, rfl, by decide +kernel, by decide +kernel, by decide +kernel, by decide +kernel, by decide +kernel⟩
  refine ⟨fun hc => ?_, hst⟩
  obtain ⟨st, h1, _, h3, _, h5, _⟩ := hst
  have := (hc _ _ _ _ _ _ _ _ regForest_wf h1).1 0 1 _ rfl rfl
  rw [this, h5] at h3
  norm_num at h3

/-- The second part of the claim fails too, for an observation alone in its call. -/
theorem C111_value_false : ∃ st, importanceSdpReg regForest regOut 1 regData [row2 1 1] 2 [[]] (9 / 10) 0 false 2 = some st ∧
    (st.best 0).cols = [1] ∧ (st.best 0).sdp = 1209 / 935 ∧ sdpRegCy regForest 2 regOut 1 regData [1] [row2 1 1] ≠ [(st.best 0).sdp] :=
  ⟨_, rfl, by decide +kernel, by decide +kernel, by decide +kernel⟩

example : SearchArgs 2 [[]] (List.range 2) ∧ (searchPlayers [[]] (List.range 2)).length ≤ 15 :=
  ⟨⟨by decide, by decide, by decide, by decide⟩, by decide⟩

end Acv
