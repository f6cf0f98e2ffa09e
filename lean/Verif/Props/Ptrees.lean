import Verif.Model.Ptrees
import Verif.Props.Search
import Verif.Props.TreeSdp

/-! # C87: sufficient explanations with the trees in parallel -/

namespace Acv

theorem considerPi_eq {pi : ℚ} (cols : Nat) (S : List Nat) (v : ℚ) {b : Best} (hb : 0 ≤ b.sdp) :
    considerPi pi cols S v b = consider cols S (maskPi pi v) b := by
  have h : (if pi ≤ v ∧ b.sdp ≤ v then (⟨v, S.length, writeRow S b.star⟩ : Best) else b) =
      if b.sdp ≤ maskPi pi v then ⟨maskPi pi v, S.length, writeRow S b.star⟩ else b := by
    unfold maskPi
    by_cases h1 : pi ≤ v
    · rw [if_pos h1]
      simp only [h1, true_and]
    · simp only [if_neg h1, h1, false_and, if_false]
      rw [if_neg (by intro h2; linarith)]
  unfold considerPi consider
  simp only [h]

theorem writeRow_twice (S : List Nat) (star : Nat → Int) : writeRow S (writeRow S star) = writeRow S star := by
  funext s
  unfold writeRow
  cases S[s]? <;> rfl

/-- The value of the set of all columns does not matter. -/
theorem consider_full (cols : Nat) (S : List Nat) (v w : ℚ) (h : S.length = cols) (b : Best) : consider cols S v b = consider cols S w b := by
  unfold consider
  simp only [if_pos h]
  have : ∀ u : ℚ, writeRow S (if b.sdp ≤ u then (⟨u, S.length, writeRow S b.star⟩ : Best) else b).star = writeRow S b.star := by
    intro u
    split
    · exact writeRow_twice S b.star
    · rfl
  rw [this v, this w]

theorem oneLevel_fullCongr {v w : List Nat → ℚ} {cols : Nat} (h : ∀ S : List Nat, S.length ≠ cols → v S = w S) (cands : List (List Nat)) (b : Best) :
    oneLevel v cols cands b = oneLevel w cols cands b := by
  unfold oneLevel
  induction cands generalizing b with
  | nil => rfl
  | cons S cs ih =>
    rw [List.foldl_cons, List.foldl_cons, ih]
    by_cases hS : S.length = cols
    · rw [consider_full cols S (v S) (w S) hS]
    · rw [h S hS]

theorem oneLoop_fullCongr {fin : Best → Best} {v w : List Nat → ℚ} {cols : Nat} (h : ∀ S : List Nat, S.length ≠ cols → v S = w S) (pi : ℚ) (stop : Bool)
    (half : Nat) (levels : List (List (List Nat))) (b : Best) :
    oneLoop fin v cols pi stop half levels b = oneLoop fin w cols pi stop half levels b := by
  induction levels generalizing b with
  | nil => rfl
  | cons c ls ih =>
    unfold oneLoop
    simp only [oneLevel_fullCongr h, ih]

/-- All columns are searched: some set of players has all of them. -/
theorem full_candidate {cols : Nat} {C : List (List Nat)} (h : SearchArgs cols C (List.range cols)) :
    ∃ S, Candidate (searchPlayers C (List.range cols)) (searchPlayers C (List.range cols)).length S ∧ S.length = cols := by
  refine ⟨(searchPlayers C (List.range cols)).flatten, ⟨_, List.Sublist.refl _, rfl, rfl⟩, ?_⟩
  have hc : Candidate (searchPlayers C (List.range cols)) (searchPlayers C (List.range cols)).length (searchPlayers C (List.range cols)).flatten :=
    ⟨_, List.Sublist.refl _, rfl, rfl⟩
  obtain ⟨hn, hlt⟩ := candidate_nodup (playersOk h) hc
  refine full_length hn fun s => ⟨fun hs => hlt s hs, fun hs => ?_⟩
  unfold searchPlayers
  split
  · rw [List.flatten_append, List.mem_append]
    by_cases hsC : s ∈ C.flatten
    · right
      obtain ⟨g, hg, hsg⟩ := List.mem_flatten.1 hsC
      refine List.mem_flatten.2 ⟨g, List.mem_filter.2 ⟨hg, ?_⟩, hsg⟩
      exact List.any_eq_true.2 ⟨s, hsg, by simpa using hs⟩
    · left
      refine List.mem_flatten.2 ⟨[s], List.mem_map.2 ⟨s, List.mem_filter.2 ⟨List.mem_range.2 hs, by simpa using hsC⟩, rfl⟩, by simp⟩
  · exact List.mem_flatten.2 ⟨[s], List.mem_map.2 ⟨s, List.mem_range.2 hs, rfl⟩, by simp⟩

theorem ptrees_eq {cols : Nat} {C : List (List Nat)} (h15 : (searchPlayers C (List.range cols)).length ≤ 15) (v : Nat → List Nat → ℚ) (N : Nat)
    (pi : ℚ) (minimal : Nat) (stop : Bool) :
    globalSdpPtrees v N cols C pi minimal stop = some (searchLoop clearTail (fun R S => R.map fun i => maskPi pi (v i S)) cols pi stop (cols + 1)
      ((List.range' minimal ((searchPlayers C (List.range cols)).length + 1 - minimal)).map (levelOf (searchPlayers C (List.range cols))))
      (Batch.init N)) := by
  unfold globalSdpPtrees
  rw [levelsRf_eq _ _ h15]
  rfl

/-- **C87.** At most 15 players: the search answers, every sample is reported at level `pi`, whether or not the search may stop early, with a
set of columns whose value is the one reported (1 for the set of all columns); no set of fewer players reaches `pi`, except the set of all
columns, and no set of as many players has a larger value. -/
theorem C87_search {cols : Nat} {C : List (List Nat)} (h : SearchArgs cols C (List.range cols))
    (h15 : (searchPlayers C (List.range cols)).length ≤ 15) (v : Nat → List Nat → ℚ) (N : Nat) {pi : ℚ} (h0 : 0 < pi) (h1 : pi ≤ 1) {minimal : Nat}
    (hmin : minimal ≤ (searchPlayers C (List.range cols)).length) (stop : Bool) :
    ∃ st, globalSdpPtrees v N cols C pi minimal stop = some st ∧ ∀ i < N, pi ≤ (st.best i).sdp ∧
      ∃ k S, minimal ≤ k ∧ Candidate (searchPlayers C (List.range cols)) k S ∧ (st.best i).cols = S.map (↑) ∧
        (S.length ≠ cols → (st.best i).sdp = v i S) ∧ (S.length = cols → (st.best i).sdp = 1) ∧
        (∀ k' S', minimal ≤ k' → k' < k → Candidate (searchPlayers C (List.range cols)) k' S' → v i S' < pi) ∧
        ∀ S', S'.length ≠ cols → Candidate (searchPlayers C (List.range cols)) k S' → v i S' ≤ (st.best i).sdp := by
  refine ⟨_, ptrees_eq h15 v N pi minimal stop, fun i hi => ?_⟩
  have hb := batch_best finOk_clearTail (valsOk_map (fun i S => maskPi pi (v i S)) N) cols pi stop (cols + 1) ((List.range' minimal
    ((searchPlayers C (List.range cols)).length + 1 - minimal)).map (levelOf (searchPlayers C (List.range cols)))) hi
  rw [hb]
  clear hb
  generalize hw : (fun S : List Nat => if S.length = cols then (1 : ℚ) else maskPi pi (v i S)) = w
  have hwf : ∀ S : List Nat, S.length = cols → w S = 1 := fun S hS => by rw [← hw]; exact if_pos hS
  have hwn : ∀ S : List Nat, S.length ≠ cols → w S = maskPi pi (v i S) := fun S hS => by rw [← hw]; exact if_neg hS
  rw [oneLoop_fullCongr (w := w) fun S hS => (hwn S hS).symm]
  have hm : ∀ S, pi ≤ maskPi pi (v i S) → maskPi pi (v i S) = v i S := by
    intro S hS
    unfold maskPi at hS ⊢
    split
    · rfl
    · rename_i hn; rw [if_neg hn] at hS; linarith
  have hm2 : ∀ S, maskPi pi (v i S) < pi → v i S < pi := by
    intro S hS
    unfold maskPi at hS
    by_contra hn
    rw [if_pos (not_lt.1 hn)] at hS
    exact hn hS
  have hres : pi ≤ (sampleResult clearTail (searchPlayers C (List.range cols)) w cols pi minimal
      ((searchPlayers C (List.range cols)).length + 1 - minimal) stop (cols + 1)).sdp := by
    by_contra hlt
    obtain ⟨S, hS, hl⟩ := full_candidate h
    have := sample_none finOk_clearTail (playersOk h) w h0 h1 minimal _ stop (cols + 1) (not_le.1 hlt) hmin (by omega) hS (Or.inr (by
      intro k' S' _ _ hS'
      obtain ⟨hn, hlt'⟩ := candidate_nodup (playersOk h) hS'
      have : S'.length ≤ cols := by
        have := (List.subperm_of_subset hn (fun s hs => List.mem_range.2 (hlt' s hs))).length_le
        simpa using this
      omega)) (Nat.succ_pos _)
    rw [hwf S hl] at this
    linarith
  refine ⟨hres, ?_⟩
  obtain ⟨k, S, a1, a2, a3, _, a5, a6, a7, a8⟩ := sample_reports finOk_clearTail (playersOk h) w h0 h1 minimal _ stop (cols + 1) hres
  have hle : ∀ S' : List Nat, S'.length ≠ cols → w S' < pi → v i S' < pi := fun S' hS' hlt => hm2 S' (hwn S' hS' ▸ hlt)
  refine ⟨k, S, a1, a2, a3, fun hl => ?_, a6, fun k' S' b1 b2 b3 => ?_, fun S' hS' b => ?_⟩
  · have e := (a5 hl).trans (hwn S hl)
    rw [show (oneLoop clearTail w cols pi stop (cols + 1) ((List.range' minimal ((searchPlayers C (List.range cols)).length + 1 - minimal)).map
      (levelOf (searchPlayers C (List.range cols)))) Best.init).sdp = maskPi pi (v i S) from e]
    exact hm S (e ▸ hres)
  · have hlt := a7 k' S' b1 b2 b3
    by_cases hl : S'.length = cols
    · rw [hwf S' hl] at hlt; linarith
    · exact hle S' hl hlt
  · have h3 := a8 S' b
    have hsdp : (sampleResult clearTail (searchPlayers C (List.range cols)) w cols pi minimal
      ((searchPlayers C (List.range cols)).length + 1 - minimal) stop (cols + 1)).sdp = w S := by
      by_cases hl : S.length = cols
      · exact (a6 hl).trans (hwf S hl).symm
      · exact a5 hl
    change v i S' ≤ (sampleResult clearTail (searchPlayers C (List.range cols)) w cols pi minimal
      ((searchPlayers C (List.range cols)).length + 1 - minimal) stop (cols + 1)).sdp
    rw [hsdp]
    by_cases hge : pi ≤ v i S'
    · refine le_trans ?_ h3
      rw [hwn S' hS']
      unfold maskPi
      rw [if_pos hge]
    · rw [hsdp] at hres
      linarith

theorem oneLoop_nostop {fin : Best → Best} (v : List Nat → ℚ) (cols : Nat) (pi : ℚ) (stop : Bool) {half : Nat} {levels : List (List (List Nat))}
    (hl : ∀ c ∈ levels, ∀ S ∈ c, S.length < half) (hh : 0 < half) (b : Best) :
    oneLoop fin v cols pi stop half levels b = oneLoop fin v cols pi false half levels b := by
  induction levels generalizing b with
  | nil => rfl
  | cons c ls ih =>
    unfold oneLoop
    have : ¬ half ≤ (c.getLast?.map List.length).getD 0 := by
      cases hc : c.getLast? with
      | none => simpa using hh.ne'
      | some S => simpa using hl c (by simp) S (List.mem_of_getLast? hc)
    simp only [this, decide_false, Bool.and_false, ih fun c' hc' => hl c' (by simp [hc'])]

/-- **C87, early stop.** The reports and the importances do not depend on `stop`. -/
theorem C87_stop {cols : Nat} {C : List (List Nat)} (h : SearchArgs cols C (List.range cols))
    (h15 : (searchPlayers C (List.range cols)).length ≤ 15) (v : Nat → List Nat → ℚ) (N : Nat) (pi : ℚ) (minimal : Nat) :
    ∃ st st', globalSdpPtrees v N cols C pi minimal true = some st ∧ globalSdpPtrees v N cols C pi minimal false = some st' ∧
      (∀ i < N, st.best i = st'.best i) ∧ ∀ j, st.importance N j = st'.importance N j := by
  have key : ∀ i < N, (searchLoop clearTail (fun R S => R.map fun i => maskPi pi (v i S)) cols pi true (cols + 1)
      ((List.range' minimal ((searchPlayers C (List.range cols)).length + 1 - minimal)).map (levelOf (searchPlayers C (List.range cols))))
      (Batch.init N)).best i = (searchLoop clearTail (fun R S => R.map fun i => maskPi pi (v i S)) cols pi false (cols + 1)
      ((List.range' minimal ((searchPlayers C (List.range cols)).length + 1 - minimal)).map (levelOf (searchPlayers C (List.range cols))))
      (Batch.init N)).best i := by
    intro i hi
    have hb := fun st => batch_best finOk_clearTail (valsOk_map (fun i S => maskPi pi (v i S)) N) cols pi st (cols + 1) ((List.range' minimal
      ((searchPlayers C (List.range cols)).length + 1 - minimal)).map (levelOf (searchPlayers C (List.range cols)))) hi
    rw [hb, hb]
    refine oneLoop_nostop _ _ _ _ (fun c hc S hS => ?_) (Nat.succ_pos _) _
    obtain ⟨k, -, rfl⟩ := List.mem_map.1 hc
    obtain ⟨hn, hlt⟩ := candidate_nodup (playersOk h) (mem_levelOf.1 hS)
    have := (List.subperm_of_subset hn (fun s hs => List.mem_range.2 (hlt s hs))).length_le
    simp at this
    omega
  refine ⟨_, _, ptrees_eq h15 v N pi minimal true, ptrees_eq h15 v N pi minimal false, key, fun j => ?_⟩
  unfold Batch.importance
  rw [batch_glob finOk_clearTail (valsOk_map (fun i S => maskPi pi (v i S)) N), batch_glob finOk_clearTail (valsOk_map (fun i S => maskPi pi (v i S)) N)]
  have hf : ((List.range N).filter fun i => decide (pi ≤ ((searchLoop clearTail (fun R S => R.map fun i => maskPi pi (v i S)) cols pi true (cols + 1)
      ((List.range' minimal ((searchPlayers C (List.range cols)).length + 1 - minimal)).map (levelOf (searchPlayers C (List.range cols))))
      (Batch.init N)).best i).sdp)) = (List.range N).filter fun i => decide (pi ≤ ((searchLoop clearTail (fun R S => R.map fun i => maskPi pi (v i S)) cols pi false (cols + 1)
      ((List.range' minimal ((searchPlayers C (List.range cols)).length + 1 - minimal)).map (levelOf (searchPlayers C (List.range cols))))
      (Batch.init N)).best i).sdp) := List.filter_congr fun i hi => by rw [key i (List.mem_range.1 hi)]
  rw [hf]
  congr 2
  refine congrArg List.sum (List.map_congr_left fun i hi => ?_)
  rw [key i (List.mem_range.1 (List.mem_of_mem_filter hi))]

/-- **C87, value.** For a set that is neither empty nor full, the value reaches a level in `(0, 1]` exactly when `py_compute_sdp_clf` does. -/
theorem C87_value (ts : List TreeArr) (m : Nat) (lab : Row → Nat) (data : List Row) {S : List Nat} (hS : S ≠ []) (hSm : S.length ≠ m) (x : Row)
    {pi : ℚ} (h0 : 0 < pi) (h1 : pi ≤ 1) : pi ≤ ptreesValue ts m lab data S x ↔ pi ≤ sdpClfPy ts m lab data S x := by
  have e : sdpClfPy ts m lab data S x = clamp01 (ptreesValue ts m lab data S x) := by
    unfold sdpClfPy ptreesValue
    rw [if_neg hSm, if_neg hS]
    simp only [eq_comm (a := lab x), ne_eq]
  rw [e]
  unfold clamp01
  constructor
  · intro h
    have : 0 ≤ ptreesValue ts m lab data S x := by linarith
    rw [if_pos this]
    by_cases h2 : 1 < ptreesValue ts m lab data S x
    · rw [if_neg (not_le.2 h2), if_pos h2]; linarith
    · rw [if_pos (not_lt.1 h2), if_neg h2]; linarith
  · intro h
    by_contra hn
    rw [not_le] at hn
    rw [if_pos (by linarith : ptreesValue ts m lab data S x ≤ 1), if_neg (by linarith : ¬ 1 < ptreesValue ts m lab data S x)] at h
    split at h <;> linarith

theorem sumLeaves_add (ts : List TreeArr) (k : Nat) (f g : Rect → ℚ → ℚ) :
    sumLeaves ts k (fun r v => f r v + g r v) = sumLeaves ts k f + sumLeaves ts k g := by
  unfold sumLeaves
  rw [← List.sum_map_add]
  simp only [← List.sum_map_add]

/-- **C87, no column.** The value of the empty set is the share of the background rows with the class of the sample, or 0 (if the mean
output of the class is the same for these rows and for the others). -/
theorem C87_empty (ts : List TreeArr) (m : Nat) (lab : Row → Nat) {data : List Row} (hd : data ≠ []) (x : Row) :
    ptreesValue ts m lab data [] x = ((data.filter fun z => lab z = lab x).length : ℚ) / data.length ∨ ptreesValue ts m lab data [] x = 0 := by
  have hsat : ∀ (r : Rect), satCC r [] x = true := fun r => rfl
  have hcnt : ∀ (rows : List Row) (r : Rect), cntCC rows r [] = rows.length := by
    intro rows r
    unfold cntCC
    exact congrArg List.length (List.filter_eq_self.2 fun z _ => rfl)
  have hmean : ∀ rows : List Row, (sumLeaves ts (lab x) fun r v => if satCC r [] x then
      guardDiv (cntCC rows r (List.range m) * v) (cntCC rows r []) else 0) =
      (sumLeaves ts (lab x) fun r v => (cntCC rows r (List.range m) : ℚ) * v) / rows.length := by
    intro rows
    rw [← sumLeaves_div]
    congr 1
    funext r v
    rw [if_pos (hsat r), hcnt]
    unfold guardDiv
    split
    · rfl
    · rename_i h; rw [not_not.1 h, div_zero]
  have hz : ∀ rows : List Row, (rows.length : ℚ) = 0 → (sumLeaves ts (lab x) fun r v => (cntCC rows r (List.range m) : ℚ) * v) = 0 := by
    intro rows h
    have : rows = [] := List.length_eq_zero_iff.1 (by exact_mod_cast h)
    subst this
    unfold sumLeaves cntCC
    simp
  unfold ptreesValue
  simp only [hmean]
  generalize hup : (data.filter fun z => decide (lab x = lab z)) = up
  generalize hdown : (data.filter fun z => decide (¬ lab x = lab z)) = down
  have hup' : (data.filter fun z => decide (lab z = lab x)) = up := by rw [← hup]; simp only [eq_comm]
  rw [hup']
  have hsplit : ∀ q : Row → Bool, (data.filter q).length = (up.filter q).length + (down.filter q).length := by
    intro q
    clear hup'
    subst hup hdown
    rw [List.filter_filter, List.filter_filter, ← List.countP_eq_length_filter, ← List.countP_eq_length_filter, ← List.countP_eq_length_filter]
    induction data with
    | nil => rfl
    | cons z zs ih =>
      by_cases hzs : zs = []
      · subst hzs
        by_cases h1 : lab x = lab z <;> by_cases h2 : q z <;> simp [h1, h2]
      · have := ih hzs
        simp only [List.countP_cons]
        rw [this]
        by_cases h1 : lab x = lab z <;> by_cases h2 : q z <;> simp [h1, h2] <;> omega
  have hlen : (data.length : ℚ) = up.length + down.length := by
    have := hsplit fun _ => true
    simp only [List.filter_true] at this
    exact_mod_cast this
  have hadd : (sumLeaves ts (lab x) fun r v => (cntCC data r (List.range m) : ℚ) * v) =
      (sumLeaves ts (lab x) fun r v => (cntCC up r (List.range m) : ℚ) * v) + sumLeaves ts (lab x) fun r v => (cntCC down r (List.range m) : ℚ) * v := by
    rw [← sumLeaves_add]
    congr 1
    funext r v
    unfold cntCC
    rw [hsplit]
    push_cast
    ring
  rw [hadd]
  have hzu := hz up
  have hzd := hz down
  generalize (sumLeaves ts (lab x) fun r v => (cntCC up r (List.range m) : ℚ) * v) = U at *
  generalize (sumLeaves ts (lab x) fun r v => (cntCC down r (List.range m) : ℚ) * v) = D at *
  have hn : (data.length : ℚ) ≠ 0 := by exact_mod_cast (List.length_pos_iff.2 hd).ne'
  rw [hlen] at hn ⊢
  unfold guardDiv
  split
  · rename_i hne
    left
    rw [div_eq_iff hne]
    clear hlen hadd hz hmean
    by_cases h1 : (up.length : ℚ) = 0
    · have hU := hzu h1
      rw [h1, zero_add] at hn
      subst hU
      rw [h1, zero_add, zero_add, sub_self, zero_div, zero_mul]
    · by_cases h2 : (down.length : ℚ) = 0
      · have hD := hzd h2
        subst hD
        rw [h2, add_zero, add_zero, zero_div, sub_zero, div_self h1, one_mul]
      · field_simp
        ring
  · right; rfl

/-- **C87, the method.** `importance_sdp_clf_ptrees` reports every observation as in `C87_search`, for its own probabilities, and the importance of a
column is the share of the observations whose reported set has the column. -/
theorem C87_importance {cols : Nat} {C : List (List Nat)} (h : SearchArgs cols C (List.range cols))
    (h15 : (searchPlayers C (List.range cols)).length ≤ 15) (ts : List TreeArr) (lab : Row → Nat) (data X : List Row) {pi : ℚ} (h0 : 0 < pi) (h1 : pi ≤ 1)
    {minimal : Nat} (hmin : minimal ≤ (searchPlayers C (List.range cols)).length) (stop : Bool) :
    ∃ st, importanceSdpPtrees ts lab data X cols C pi minimal stop = some st ∧
      (∀ (i : Nat) (x : Row), X[i]? = some x → pi ≤ (st.best i).sdp ∧
        ∃ k S, minimal ≤ k ∧ Candidate (searchPlayers C (List.range cols)) k S ∧ (st.best i).cols = S.map (↑) ∧
          (S.length ≠ cols → (st.best i).sdp = ptreesValue ts cols lab data S x) ∧ (S.length = cols → (st.best i).sdp = 1) ∧
          (∀ k' S', minimal ≤ k' → k' < k → Candidate (searchPlayers C (List.range cols)) k' S' → ptreesValue ts cols lab data S' x < pi) ∧
          ∀ S', S'.length ≠ cols → Candidate (searchPlayers C (List.range cols)) k S' → ptreesValue ts cols lab data S' x ≤ (st.best i).sdp) ∧
      ∀ j : Nat, st.importance X.length j = (((List.range X.length).filter fun i => decide ((j : Int) ∈ (st.best i).cols)).length : ℚ) / X.length := by
  obtain ⟨st, e, hst⟩ := C87_search h h15 (fun i S => ptreesValue ts cols lab data S (X.getD i fun _ => 0)) X.length h0 h1 hmin stop
  refine ⟨st, e, fun i x hx => ?_, fun j => ?_⟩
  · obtain ⟨hi, -⟩ := List.getElem?_eq_some_iff.1 hx
    have hg : X.getD i (fun _ => 0) = x := by rw [List.getD_eq_getElem?_getD, hx]; rfl
    have := hst i hi
    simp only [hg] at this
    exact this
  · have e2 := e
    rw [ptrees_eq h15] at e2
    have hg := batch_glob finOk_clearTail (valsOk_map (fun i S => maskPi pi (ptreesValue ts cols lab data S (X.getD i fun _ => 0))) X.length) cols pi stop
      (cols + 1) ((List.range' minimal ((searchPlayers C (List.range cols)).length + 1 - minimal)).map (levelOf (searchPlayers C (List.range cols)))) j
    rw [Option.some.inj e2] at hg
    unfold Batch.importance
    congr 2
    rw [hg, List.filter_eq_self.2 fun i hi => by simpa using (hst i (List.mem_range.1 hi)).1]
    rw [← List.countP_eq_length_filter]
    have hone : ∀ l : List Nat, (∀ i ∈ l, i < X.length) →
        (l.map fun i => (st.best i).cols.count (j : Int)).sum = l.countP fun i => decide ((j : Int) ∈ (st.best i).cols) := by
      intro l
      induction l with
      | nil => intro _; rfl
      | cons i l ih =>
        intro hl
        rw [List.map_cons, List.sum_cons, ih fun i' hi' => hl i' (by simp [hi']), List.countP_cons]
        obtain ⟨-, k, S, -, hS, hc, -⟩ := hst i (hl i (by simp))
        obtain ⟨hn, -⟩ := candidate_nodup (playersOk h) hS
        have hn' : ((st.best i).cols).Nodup := by
          rw [hc]
          exact hn.map fun a b hab => by exact_mod_cast hab
        rw [hn'.count]
        by_cases hm : (j : Int) ∈ (st.best i).cols
        · simp [hm, Nat.add_comm]
        · simp [hm]
    exact hone _ fun i hi => List.mem_range.1 hi

/-- **C87, range: false.** The reported probability can exceed 1 (25/21 for the second sample). -/
theorem C87_range_false : ∃ st, WellFormed sdpTree 2 ∧ SearchArgs 2 [[]] (List.range 2) ∧
    importanceSdpPtrees [sdpTree] sdpLab [row2 2 0, row2 2 1, row2 1 2] [row2 2 0, row2 1 2] 2 [[]] (9 / 10) 0 true = some st ∧
    (st.best 0).sdp = 1 ∧ (st.best 0).cols = [1] ∧ (st.best 1).sdp = 25 / 21 ∧ (st.best 1).cols = [0] := by
  refine ⟨_, sdpTree_wf, ⟨by decide, by decide, by decide, by decide⟩, rfl, ?_, ?_, ?_, ?_⟩ <;> decide +kernel

/-- With a lower level the first sample is explained by no column: two thirds of the rows have its class. -/
example : ∃ st, importanceSdpPtrees [sdpTree] sdpLab [row2 2 0, row2 2 1, row2 1 2] [row2 2 0, row2 1 2] 2 [[]] (3 / 5) 0 true = some st ∧
    (st.best 0).sdp = 2 / 3 ∧ (st.best 0).cols = [] := by
  refine ⟨_, rfl, ?_, ?_⟩ <;> decide +kernel

end Acv
