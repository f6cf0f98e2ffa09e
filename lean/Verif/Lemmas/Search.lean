import Verif.Spec.Search
import Verif.Lemmas.LeafShapPy
import Mathlib.Tactic.Linarith
import Mathlib.Data.List.Nodup
import Mathlib.Data.List.Flatten
import Mathlib.Algebra.BigOperators.Group.List.Basic

/-! # Lemmas about the searches -/

namespace Acv

/-! ## One sample -/

theorem writeRow_cols (S : List Nat) (star : Nat → Int) :
    (List.range S.length).map (writeRow S star) = S.map ((↑) : Nat → Int) := by
  apply List.ext_getElem (by simp)
  intro i h1 h2
  simp at h1
  simp [writeRow, h1]

theorem cols_mk (v : ℚ) (S : List Nat) (star : Nat → Int) :
    (Best.mk v S.length (writeRow S star)).cols = S.map ((↑) : Nat → Int) := writeRow_cols S star

/-- The sets of one size, for one sample. -/
def oneLevel (v : List Nat → ℚ) (cols : Nat) (cands : List (List Nat)) (b : Best) : Best :=
  cands.foldl (fun b S => consider cols S (v S) b) b

/-- The whole search for one sample. -/
def oneLoop (fin : Best → Best) (v : List Nat → ℚ) (cols : Nat) (pi : ℚ) (stop : Bool) (half : Nat) :
    List (List (List Nat)) → Best → Best
  | [], b => b
  | cands :: ls, b =>
    let b' := oneLevel v cols cands b
    if pi ≤ b'.sdp then fin b' else
      if stop && decide (half ≤ (cands.getLast?.map List.length).getD 0) then b' else oneLoop fin v cols pi stop half ls b'

theorem oneLevel_nofull (v : List Nat → ℚ) (cols : Nat) : ∀ (cands : List (List Nat)) (b : Best)
    (_ : ∀ S ∈ cands, S.length ≠ cols),
    (oneLevel v cols cands b = b ∧ ∀ S ∈ cands, v S < b.sdp) ∨
    (∃ S ∈ cands, (oneLevel v cols cands b).sdp = v S ∧ (oneLevel v cols cands b).cols = S.map (↑) ∧ b.sdp ≤ v S ∧
      ∀ S' ∈ cands, v S' ≤ v S)
  | [], b, _ => Or.inl ⟨rfl, by simp⟩
  | T :: cands, b, h => by
    have hT : T.length ≠ cols := h T (by simp)
    have h' : ∀ S ∈ cands, S.length ≠ cols := fun S hS => h S (by simp [hS])
    have e : oneLevel v cols (T :: cands) b = oneLevel v cols cands (consider cols T (v T) b) := rfl
    rw [e]
    by_cases hv : b.sdp ≤ v T
    · have ec : consider cols T (v T) b = ⟨v T, T.length, writeRow T b.star⟩ := by simp [consider, hv, hT]
      rw [ec]
      rcases oneLevel_nofull v cols cands ⟨v T, T.length, writeRow T b.star⟩ h' with ⟨h1, h2⟩ | ⟨S, hS, h1, h2, h3, h4⟩
      · refine Or.inr ⟨T, by simp, by rw [h1], by rw [h1, cols_mk], hv, ?_⟩
        intro S' hS'
        rcases List.mem_cons.1 hS' with rfl | hS'
        · exact le_refl _
        · exact (h2 S' hS').le
      · refine Or.inr ⟨S, by simp [hS], h1, h2, hv.trans h3, ?_⟩
        intro S' hS'
        rcases List.mem_cons.1 hS' with rfl | hS'
        · exact h3
        · exact h4 S' hS'
    · have ec : consider cols T (v T) b = b := by simp [consider, hv, hT]
      rw [ec]
      push Not at hv
      rcases oneLevel_nofull v cols cands b h' with ⟨h1, h2⟩ | ⟨S, hS, h1, h2, h3, h4⟩
      · refine Or.inl ⟨h1, ?_⟩
        intro S' hS'
        rcases List.mem_cons.1 hS' with rfl | hS'
        · exact hv
        · exact h2 S' hS'
      · refine Or.inr ⟨S, by simp [hS], h1, h2, h3, ?_⟩
        intro S' hS'
        rcases List.mem_cons.1 hS' with rfl | hS'
        · exact (hv.trans_le h3).le
        · exact h4 S' hS'

theorem oneLevel_full (v : List Nat → ℚ) (cols : Nat) (S : List Nat) (b : Best) (h : S.length = cols) :
    (oneLevel v cols [S] b).sdp = 1 ∧ (oneLevel v cols [S] b).cols = S.map (↑) := by
  subst h
  have e : ∃ star, oneLevel v S.length [S] b = ⟨1, S.length, writeRow S star⟩ := by
    simp only [oneLevel, List.foldl_cons, List.foldl_nil, consider, if_true]
    exact ⟨_, rfl⟩
  obtain ⟨star, e⟩ := e
  rw [e]
  exact ⟨rfl, cols_mk _ _ _⟩

/-- The finishing step keeps what is reported. -/
structure FinOk (fin : Best → Best) : Prop where
  sdp : ∀ b, (fin b).sdp = b.sdp
  cols : ∀ b, (fin b).cols = b.cols

theorem finOk_id : FinOk id := ⟨fun _ => rfl, fun _ => rfl⟩

theorem finOk_clearTail : FinOk clearTail := by
  refine ⟨fun _ => rfl, fun b => ?_⟩
  apply List.ext_getElem (by simp [Best.cols, clearTail])
  intro i h1 h2
  simp [Best.cols] at h2
  simp [Best.cols, clearTail, h2]

/-- A size without full sets, or reduced to the full set. -/
def GoodLevel (cols : Nat) (cands : List (List Nat)) : Prop :=
  (∀ S ∈ cands, S.length ≠ cols) ∨ ∃ S, cands = [S] ∧ S.length = cols

/-- What the search of one sample reports. -/
theorem oneLoop_spec {fin : Best → Best} (hf : FinOk fin) (v : List Nat → ℚ) (cols : Nat) (pi : ℚ) (stop : Bool) (half : Nat) :
    ∀ (levels : List (List (List Nat))) (b : Best), (∀ c ∈ levels, GoodLevel cols c) → b.sdp < pi → pi ≤ 1 →
    let o := oneLoop fin v cols pi stop half levels b
    (o.sdp < pi ∧ ∃ pre post, levels = pre ++ post ∧ (∀ c ∈ pre, ∀ S ∈ c, v S < pi) ∧
      (post ≠ [] → stop = true ∧ ∃ c, pre.getLast? = some c ∧ half ≤ (c.getLast?.map List.length).getD 0)) ∨
    (pi ≤ o.sdp ∧ ∃ pre c post, levels = pre ++ c :: post ∧ (∀ c ∈ pre, ∀ S ∈ c, v S < pi) ∧ ∃ S ∈ c,
      o.cols = S.map (↑) ∧ (S.length ≠ cols → o.sdp = v S ∧ ∀ S' ∈ c, v S' ≤ v S) ∧
      (S.length = cols → o.sdp = 1 ∧ c = [S]))
  | [], b, _, hb, _ => Or.inl ⟨hb, [], [], rfl, by simp, by simp⟩
  | cands :: ls, b, hl, hb, hp => by
    have hl' : ∀ c ∈ ls, GoodLevel cols c := fun c hc => hl c (by simp [hc])
    have key : pi ≤ (oneLevel v cols cands b).sdp → ∃ S ∈ cands,
        (fin (oneLevel v cols cands b)).cols = S.map (↑) ∧
        (S.length ≠ cols → (fin (oneLevel v cols cands b)).sdp = v S ∧ ∀ S' ∈ cands, v S' ≤ v S) ∧
        (S.length = cols → (fin (oneLevel v cols cands b)).sdp = 1 ∧ cands = [S]) := by
      intro hpi
      rw [hf.sdp, hf.cols]
      rcases hl cands (by simp) with hno | ⟨S, rfl, hS⟩
      · rcases oneLevel_nofull v cols cands b hno with ⟨h1, _⟩ | ⟨S, hS, h1, h2, _, h4⟩
        · rw [h1] at hpi; linarith
        · exact ⟨S, hS, h2, fun _ => ⟨h1, h4⟩, fun h => absurd h (hno S hS)⟩
      · obtain ⟨h1, h2⟩ := oneLevel_full v cols S b hS
        exact ⟨S, by simp, h2, fun h => absurd hS h, fun _ => ⟨h1, rfl⟩⟩
    have key2 : ¬ pi ≤ (oneLevel v cols cands b).sdp → ∀ S ∈ cands, v S < pi := by
      intro hpi S hS
      push Not at hpi
      rcases hl cands (by simp) with hno | ⟨T, rfl, hT⟩
      · rcases oneLevel_nofull v cols cands b hno with ⟨_, h2⟩ | ⟨S', _, h1, _, _, h4⟩
        · exact (h2 S hS).trans hb
        · exact (h4 S hS).trans_lt (h1 ▸ hpi)
      · rw [(oneLevel_full v cols T b hT).1] at hpi
        linarith
    simp only [oneLoop]
    by_cases hpi : pi ≤ (oneLevel v cols cands b).sdp
    · rw [if_pos hpi]
      obtain ⟨S, hS, h1, h2, h3⟩ := key hpi
      exact Or.inr ⟨by rw [hf.sdp]; exact hpi, [], cands, ls, rfl, by simp, S, hS, h1, h2, h3⟩
    · rw [if_neg hpi]
      split
      · rename_i hstop
        simp at hstop
        refine Or.inl ⟨by push Not at hpi; exact hpi, [cands], ls, rfl, ?_, ?_⟩
        · intro c hc S hS
          simp at hc; subst hc
          exact key2 hpi S hS
        · intro _
          exact ⟨hstop.1, cands, rfl, hstop.2⟩
      · have hb' : (oneLevel v cols cands b).sdp < pi := by push Not at hpi; exact hpi
        rcases oneLoop_spec hf v cols pi stop half ls _ hl' hb' hp with
          ⟨h1, pre, post, h2, h3, h4⟩ | ⟨h1, pre, c, post, h2, h3, h4⟩
        · refine Or.inl ⟨h1, cands :: pre, post, by rw [h2]; rfl, ?_, ?_⟩
          · intro c hc S hS
            rcases List.mem_cons.1 hc with rfl | hc
            · exact key2 hpi S hS
            · exact h3 c hc S hS
          · intro hpost
            obtain ⟨hs, c, hc, hh⟩ := h4 hpost
            refine ⟨hs, c, ?_, hh⟩
            cases pre with
            | nil => simp at hc
            | cons a l => rw [List.getLast?_cons_cons]; exact hc
        · refine Or.inr ⟨h1, cands :: pre, c, post, by rw [h2]; rfl, ?_, h4⟩
          intro c hc S hS
          rcases List.mem_cons.1 hc with rfl | hc
          · exact key2 hpi S hS
          · exact h3 c hc S hS

/-! ## The batch -/

theorem scanRows_apply (cols : Nat) (S : List Nat) (f : Nat → ℚ) : ∀ (R : List Nat) (best : Nat → Best) (i : Nat), R.Nodup →
    scanRows cols S R (R.map f) best i = if i ∈ R then consider cols S (f i) (best i) else best i
  | [], best, i, _ => by simp [scanRows]
  | a :: R, best, i, h => by
    have hn := (List.nodup_cons.1 h)
    have e : scanRows cols S (a :: R) ((a :: R).map f) best
        = scanRows cols S R (R.map f) (upd best a (consider cols S (f a) (best a))) := rfl
    rw [e, scanRows_apply cols S f R _ i hn.2]
    by_cases hia : i = a
    · subst hia
      simp [hn.1, upd]
    · simp [hia, upd]

theorem scanCands_apply (cols : Nat) (sdp : Nat → List Nat → ℚ) (R : List Nat) (hR : R.Nodup) (i : Nat) :
    ∀ (cands : List (List Nat)) (best : Nat → Best),
    cands.foldl (fun best S => scanRows cols S R (R.map fun i => sdp i S) best) best i
      = if i ∈ R then oneLevel (sdp i) cols cands (best i) else best i
  | [], best => by simp [oneLevel]
  | S :: cands, best => by
    rw [List.foldl_cons, scanCands_apply cols sdp R hR i cands, scanRows_apply _ _ _ _ _ _ hR]
    by_cases h : i ∈ R
    · simp only [h, if_true]; rfl
    · simp [h]

theorem removePop_eq {R : List Nat} (h : R.Nodup) {v : Nat} (hv : v ∈ R) :
    removePop R v = R.filter fun a => decide (a ≠ v) := by
  have hl : (R.filter fun a => decide (a ≠ v)).length + 1 = R.length := by
    have e : (R.filter fun a => decide (a ≠ v)) = R.erase v := by
      rw [List.Nodup.erase_eq_filter h]
      apply List.filter_congr
      intro a _
      rw [Bool.eq_iff_iff]; simp
    rw [e, List.length_erase_of_mem hv]
    have := List.length_pos_of_mem hv
    omega
  unfold removePop
  have hd : (R.drop (R.filter fun a => decide (a ≠ v)).length).length = 1 := by
    rw [List.length_drop]; omega
  obtain ⟨a, ha⟩ := List.length_eq_one_iff.1 hd
  simp only [ha, List.dropLast_concat]

theorem foldl_removePop (r : List Nat) : ∀ (R : List Nat), R.Nodup → r.Nodup → (∀ v ∈ r, v ∈ R) →
    r.foldl removePop R = R.filter fun a => decide (a ∉ r) := by
  induction r with
  | nil => intro R _ _ _; simp
  | cons v r ih =>
    intro R hR hr hs
    rw [List.foldl_cons, removePop_eq hR (hs v (by simp))]
    rw [ih _ (hR.filter _) (List.nodup_cons.1 hr).2, List.filter_filter]
    · apply List.filter_congr
      intro a _
      rw [Bool.eq_iff_iff]; simp; tauto
    · intro w hw
      simp only [List.mem_filter, decide_eq_true_eq]
      refine ⟨hs w (by simp [hw]), ?_⟩
      rintro rfl
      exact (List.nodup_cons.1 hr).1 hw

theorem closeLevel_R (fin : Best → Best) (pi : ℚ) (st : Batch) (h : st.R.Nodup) :
    (closeLevel fin pi st).R = st.R.filter fun i => decide ((st.best i).sdp < pi) := by
  unfold closeLevel
  simp only
  rw [foldl_removePop _ _ h (h.filter _) (fun v hv => (List.mem_filter.1 hv).1)]
  apply List.filter_congr
  intro a ha
  rw [Bool.eq_iff_iff]; simp [ha]

/-- The probabilities used by the scan belong to the right samples, for every work list that occurs. -/
def ValsOk (vals : List Nat → List Nat → List ℚ) (sdp : Nat → List Nat → ℚ) (N : Nat) : Prop :=
  ∀ R S, R.Sublist (List.range N) → vals R S = R.map fun i => sdp i S

theorem filter_mem_sublist {l R : List Nat} (h : R.Sublist l) (hl : l.Nodup) : l.filter (fun i => decide (i ∈ R)) = R := by
  induction h with
  | slnil => rfl
  | @cons l₁ l₂ a h ih =>
    have hn := List.nodup_cons.1 hl
    have : a ∉ l₁ := fun ha => hn.1 (h.subset ha)
    rw [List.filter_cons, if_neg (by simp [this]), ih hn.2]
  | @cons_cons l₁ l₂ a h ih =>
    have hn := List.nodup_cons.1 hl
    rw [List.filter_cons, if_pos (by simp)]
    congr 1
    rw [← ih hn.2]
    apply List.filter_congr
    intro b hb
    rw [ih hn.2]
    have : b ≠ a := by rintro rfl; exact hn.1 hb
    rw [Bool.eq_iff_iff]; simp [this]

theorem valsOk_mask (sdp : Nat → List Nat → ℚ) (N : Nat) : ValsOk (maskVals sdp N) sdp N := by
  intro R S h
  unfold maskVals
  rw [filter_mem_sublist h List.nodup_range]

theorem valsOk_map (sdp : Nat → List Nat → ℚ) (N : Nat) : ValsOk (fun R S => R.map fun i => sdp i S) sdp N :=
  fun _ _ _ => rfl

theorem scanLevel_best {fin : Best → Best} {vals : List Nat → List Nat → List ℚ} {sdp : Nat → List Nat → ℚ} {N : Nat}
    (hv : ValsOk vals sdp N) (cols : Nat) (pi : ℚ) (cands : List (List Nat)) (st : Batch)
    (hR : st.R.Sublist (List.range N)) (i : Nat) :
    (scanLevel fin vals cols pi cands st).best i = if i ∈ st.R then
      (if pi ≤ (oneLevel (sdp i) cols cands (st.best i)).sdp then fin (oneLevel (sdp i) cols cands (st.best i))
        else oneLevel (sdp i) cols cands (st.best i)) else st.best i := by
  have hn : st.R.Nodup := hR.nodup List.nodup_range
  unfold scanLevel closeLevel
  simp only [hv _ _ hR, List.mem_filter, scanCands_apply cols sdp st.R hn]
  by_cases hi : i ∈ st.R
  · simp [hi]
  · simp [hi]

theorem scanLevel_R {fin : Best → Best} {vals : List Nat → List Nat → List ℚ} {sdp : Nat → List Nat → ℚ} {N : Nat}
    (hv : ValsOk vals sdp N) (cols : Nat) (pi : ℚ) (cands : List (List Nat)) (st : Batch)
    (hR : st.R.Sublist (List.range N)) :
    (scanLevel fin vals cols pi cands st).R =
      st.R.filter fun i => decide ((oneLevel (sdp i) cols cands (st.best i)).sdp < pi) := by
  have hn : st.R.Nodup := hR.nodup List.nodup_range
  unfold scanLevel
  rw [closeLevel_R fin pi _ (by exact hn)]
  simp only [hv _ _ hR, scanCands_apply cols sdp st.R hn]
  apply List.filter_congr
  intro a ha
  simp [ha]

theorem scanLevel_glob {fin : Best → Best} {vals : List Nat → List Nat → List ℚ} {sdp : Nat → List Nat → ℚ} {N : Nat}
    (hv : ValsOk vals sdp N) (cols : Nat) (pi : ℚ) (cands : List (List Nat)) (st : Batch)
    (hR : st.R.Sublist (List.range N)) (j : Nat) :
    (scanLevel fin vals cols pi cands st).glob j = st.glob j +
      ((st.R.filter fun i => decide (pi ≤ (oneLevel (sdp i) cols cands (st.best i)).sdp)).map fun i =>
        (oneLevel (sdp i) cols cands (st.best i)).cols.count (j : Int)).sum := by
  have hn : st.R.Nodup := hR.nodup List.nodup_range
  unfold scanLevel closeLevel
  simp only [hv _ _ hR, scanCands_apply cols sdp st.R hn]
  congr 1
  have e : (st.R.filter fun i => decide (pi ≤ (if i ∈ st.R then oneLevel (sdp i) cols cands (st.best i) else st.best i).sdp))
      = st.R.filter fun i => decide (pi ≤ (oneLevel (sdp i) cols cands (st.best i)).sdp) := by
    apply List.filter_congr
    intro a ha
    simp [ha]
  rw [e]
  congr 1
  apply List.map_congr_left
  intro a ha
  simp [(List.mem_filter.1 ha).1]

theorem searchLoop_spec {fin : Best → Best} (hf : FinOk fin) {vals : List Nat → List Nat → List ℚ} {sdp : Nat → List Nat → ℚ}
    {N : Nat} (hv : ValsOk vals sdp N) (cols : Nat) (pi : ℚ) (stop : Bool) (half : Nat) :
    ∀ (levels : List (List (List Nat))) (st : Batch), st.R.Sublist (List.range N) →
    (∀ i, (searchLoop fin vals cols pi stop half levels st).best i
      = if i ∈ st.R then oneLoop fin (sdp i) cols pi stop half levels (st.best i) else st.best i) ∧
    ((∀ i ∈ st.R, pi ≤ (st.best i).sdp → (st.best i).cols = []) →
    ∀ j, (searchLoop fin vals cols pi stop half levels st).glob j = st.glob j + ((st.R.filter fun i =>
      decide (pi ≤ (oneLoop fin (sdp i) cols pi stop half levels (st.best i)).sdp)).map fun i =>
        (oneLoop fin (sdp i) cols pi stop half levels (st.best i)).cols.count (j : Int)).sum)
  | [], st, hR => by
    refine ⟨fun i => by simp [searchLoop, oneLoop], fun hlt j => ?_⟩
    change st.glob j = st.glob j + ((st.R.filter fun i => decide (pi ≤ (st.best i).sdp)).map fun i =>
        (st.best i).cols.count (j : Int)).sum
    have : ((st.R.filter fun i => decide (pi ≤ (st.best i).sdp)).map fun i => (st.best i).cols.count (j : Int)).sum = 0 := by
      rw [List.sum_eq_zero]
      intro x hx
      obtain ⟨i, hi, rfl⟩ := List.mem_map.1 hx
      simp only [List.mem_filter, decide_eq_true_eq] at hi
      rw [hlt i hi.1 hi.2]; rfl
    rw [this, add_zero]
  | cands :: ls, st, hR => by
    have hB := scanLevel_best (fin := fin) hv cols pi cands st hR
    have hRR := scanLevel_R (fin := fin) hv cols pi cands st hR
    have hG := scanLevel_glob (fin := fin) hv cols pi cands st hR
    have hsub : (scanLevel fin vals cols pi cands st).R.Sublist (List.range N) := by
      rw [hRR]; exact List.filter_sublist.trans hR
    have hmem : ∀ i, i ∈ (scanLevel fin vals cols pi cands st).R ↔
        i ∈ st.R ∧ (oneLevel (sdp i) cols cands (st.best i)).sdp < pi := by
      intro i; rw [hRR]; simp
    have hlt' : ∀ i ∈ (scanLevel fin vals cols pi cands st).R, 
        pi ≤ ((scanLevel fin vals cols pi cands st).best i).sdp → ((scanLevel fin vals cols pi cands st).best i).cols = [] := by
      intro i hi hh
      obtain ⟨h1, h2⟩ := (hmem i).1 hi
      rw [hB, if_pos h1, if_neg (not_le.2 h2)] at hh
      exact absurd hh (not_le.2 h2)
    have hbest' : ∀ i ∈ (scanLevel fin vals cols pi cands st).R,
        (scanLevel fin vals cols pi cands st).best i = oneLevel (sdp i) cols cands (st.best i) := by
      intro i hi
      obtain ⟨h1, h2⟩ := (hmem i).1 hi
      rw [hB, if_pos h1, if_neg (not_le.2 h2)]
    obtain ⟨ih1, ih2⟩ := searchLoop_spec hf hv cols pi stop half ls _ hsub
    have ih2 := ih2 hlt'
    simp only [searchLoop]
    by_cases hstop : stop = true ∧ half ≤ (cands.getLast?.map List.length).getD 0
    · -- the half rule: every sample stops here
      have e1 : (stop && (decide ((scanLevel fin vals cols pi cands st).R = []) ||
          decide (half ≤ (cands.getLast?.map List.length).getD 0))) = true := by simp [hstop]
      rw [if_pos e1]
      have ho : ∀ i, oneLoop fin (sdp i) cols pi stop half (cands :: ls) (st.best i) =
          if pi ≤ (oneLevel (sdp i) cols cands (st.best i)).sdp then fin (oneLevel (sdp i) cols cands (st.best i))
          else oneLevel (sdp i) cols cands (st.best i) := by
        intro i
        simp [oneLoop, hstop]
      refine ⟨fun i => by rw [hB, ho], fun _ j => ?_⟩
      rw [hG]
      congr 1
      simp only [ho]
      have e2 : ∀ i, decide (pi ≤ (oneLevel (sdp i) cols cands (st.best i)).sdp) = decide (pi ≤ (if pi ≤ (oneLevel (sdp i) cols cands (st.best i)).sdp
          then fin (oneLevel (sdp i) cols cands (st.best i)) else oneLevel (sdp i) cols cands (st.best i)).sdp) := by
        intro i
        split
        · rw [hf.sdp]
        · rfl
      simp only [← e2]
      congr 1
      apply List.map_congr_left
      intro i hi
      simp only [List.mem_filter, decide_eq_true_eq] at hi
      rw [if_pos hi.2, hf.cols]
    · have ho : ∀ i, oneLoop fin (sdp i) cols pi stop half (cands :: ls) (st.best i) =
          if pi ≤ (oneLevel (sdp i) cols cands (st.best i)).sdp then fin (oneLevel (sdp i) cols cands (st.best i))
          else oneLoop fin (sdp i) cols pi stop half ls (oneLevel (sdp i) cols cands (st.best i)) := by
        intro i
        simp only [oneLoop]
        have : (stop && decide (half ≤ (cands.getLast?.map List.length).getD 0)) = false := by
          rw [Bool.eq_false_iff]; simpa using hstop
        rw [this]; simp
      have hall : (∀ i, (searchLoop fin vals cols pi stop half ls (scanLevel fin vals cols pi cands st)).best i
          = if i ∈ st.R then oneLoop fin (sdp i) cols pi stop half (cands :: ls) (st.best i) else st.best i) ∧
          ∀ j, (searchLoop fin vals cols pi stop half ls (scanLevel fin vals cols pi cands st)).glob j = st.glob j +
            ((st.R.filter fun i => decide (pi ≤ (oneLoop fin (sdp i) cols pi stop half (cands :: ls) (st.best i)).sdp)).map
              fun i => (oneLoop fin (sdp i) cols pi stop half (cands :: ls) (st.best i)).cols.count (j : Int)).sum := by
        refine ⟨fun i => ?_, fun j => ?_⟩
        · rw [ih1, ho]
          by_cases hi : i ∈ st.R
          · by_cases hp : pi ≤ (oneLevel (sdp i) cols cands (st.best i)).sdp
            · rw [if_neg (by rw [hmem]; exact fun h => absurd h.2 (not_lt.2 hp)), hB, if_pos hi, if_pos hp, if_pos hi, if_pos hp]
            · rw [if_pos ((hmem i).2 ⟨hi, not_le.1 hp⟩), if_pos hi, if_neg hp, hB, if_pos hi, if_neg hp]
          · rw [if_neg (by rw [hmem]; exact fun h => hi h.1), hB, if_neg hi, if_neg hi]
        · rw [ih2, hG, add_assoc]
          congr 1
          -- split the resolved samples into those resolved now and later
          have e1 : ((scanLevel fin vals cols pi cands st).R.filter fun i => decide (pi ≤ (oneLoop fin (sdp i) cols pi stop half ls
              ((scanLevel fin vals cols pi cands st).best i)).sdp)).map (fun i => (oneLoop fin (sdp i) cols pi stop half ls
              ((scanLevel fin vals cols pi cands st).best i)).cols.count (j : Int)) =
              ((st.R.filter fun i => decide ((oneLevel (sdp i) cols cands (st.best i)).sdp < pi)).filter fun i =>
                decide (pi ≤ (oneLoop fin (sdp i) cols pi stop half ls (oneLevel (sdp i) cols cands (st.best i))).sdp)).map
                fun i => (oneLoop fin (sdp i) cols pi stop half ls (oneLevel (sdp i) cols cands (st.best i))).cols.count (j : Int) := by
            rw [← hRR]
            rw [List.filter_congr (q := fun i => decide (pi ≤ (oneLoop fin (sdp i) cols pi stop half ls
              (oneLevel (sdp i) cols cands (st.best i))).sdp)) (fun i hi => by rw [hbest' i hi])]
            apply List.map_congr_left
            intro i hi
            rw [hbest' i (List.mem_filter.1 hi).1]
          rw [e1]
          clear ih1 ih2 hB hRR hG hsub hmem hlt' hbest' e1 hR
          induction st.R with
          | nil => simp
          | cons a R ihR =>
            simp only [List.filter_cons, ho] at ihR ⊢
            by_cases hp : pi ≤ (oneLevel (sdp a) cols cands (st.best a)).sdp
            · have hp' : ¬ (oneLevel (sdp a) cols cands (st.best a)).sdp < pi := not_lt.2 hp
              simp only [hp, hp', decide_true, decide_false, if_true, hf.sdp, hf.cols, List.map_cons, List.sum_cons,
                Bool.false_eq_true, if_false]
              omega
            · have hp' : (oneLevel (sdp a) cols cands (st.best a)).sdp < pi := not_le.1 hp
              by_cases hq : pi ≤ (oneLoop fin (sdp a) cols pi stop half ls (oneLevel (sdp a) cols cands (st.best a))).sdp
              · simp only [hp, hp', hq, decide_true, decide_false, if_true, List.filter_cons, List.map_cons, List.sum_cons,
                  Bool.false_eq_true, if_false]
                omega
              · simp only [hp, hp', hq, decide_true, decide_false, if_true, List.filter_cons,
                  Bool.false_eq_true, if_false]
                omega
      by_cases hempty : stop = true ∧ (scanLevel fin vals cols pi cands st).R = []
      · have e1 : (stop && (decide ((scanLevel fin vals cols pi cands st).R = []) ||
          decide (half ≤ (cands.getLast?.map List.length).getD 0))) = true := by simp [hempty]
        rw [if_pos e1]
        rw [hempty.2] at ih1 ih2
        refine ⟨fun i => ?_, fun _ j => ?_⟩
        · rw [← hall.1, ih1]; simp
        · rw [← hall.2, ih2]; simp
      · have e1 : (stop && (decide ((scanLevel fin vals cols pi cands st).R = []) ||
          decide (half ≤ (cands.getLast?.map List.length).getD 0))) = false := by
          rw [Bool.eq_false_iff]
          simp only [ne_eq, Bool.and_eq_true, Bool.or_eq_true, decide_eq_true_eq]
          tauto
        rw [e1]
        simp only [Bool.false_eq_true, if_false]
        exact ⟨hall.1, fun _ => hall.2⟩

theorem oneLevel_cols (v : List Nat → ℚ) (cols : Nat) : ∀ (cands : List (List Nat)) (b : Best),
    (oneLevel v cols cands b).cols = b.cols ∨ ∃ S ∈ cands, (oneLevel v cols cands b).cols = S.map (↑)
  | [], b => Or.inl rfl
  | T :: cands, b => by
    have e : oneLevel v cols (T :: cands) b = oneLevel v cols cands (consider cols T (v T) b) := rfl
    rw [e]
    have hc : (consider cols T (v T) b).cols = b.cols ∨ (consider cols T (v T) b).cols = T.map (↑) := by
      by_cases h1 : T.length = cols
      · right
        simp only [consider, h1, if_true]
        subst h1
        exact cols_mk _ _ _
      · by_cases h2 : b.sdp ≤ v T
        · right
          simp only [consider, h1, h2, if_true, if_false]
          exact cols_mk _ _ _
        · left
          simp only [consider, h1, h2, if_false]
    rcases oneLevel_cols v cols cands (consider cols T (v T) b) with h | ⟨S, hS, h⟩
    · rw [h]
      rcases hc with hc | hc
      · exact Or.inl hc
      · exact Or.inr ⟨T, by simp, hc⟩
    · exact Or.inr ⟨S, by simp [hS], h⟩

theorem oneLoop_cols {fin : Best → Best} (hf : FinOk fin) (v : List Nat → ℚ) (cols : Nat) (pi : ℚ) (stop : Bool) (half : Nat) :
    ∀ (levels : List (List (List Nat))) (b : Best),
    (oneLoop fin v cols pi stop half levels b).cols = b.cols ∨
      ∃ c ∈ levels, ∃ S ∈ c, (oneLoop fin v cols pi stop half levels b).cols = S.map (↑)
  | [], b => Or.inl rfl
  | cands :: ls, b => by
    have h1 : (oneLevel v cols cands b).cols = b.cols ∨
        ∃ c ∈ cands :: ls, ∃ S ∈ c, (oneLevel v cols cands b).cols = S.map (↑) := by
      rcases oneLevel_cols v cols cands b with h | ⟨S, hS, h⟩
      · exact Or.inl h
      · exact Or.inr ⟨cands, by simp, S, hS, h⟩
    simp only [oneLoop]
    split
    · rw [hf.cols]; exact h1
    · split
      · exact h1
      · rcases oneLoop_cols hf v cols pi stop half ls (oneLevel v cols cands b) with h | ⟨c, hc, S, hS, h⟩
        · rw [h]; exact h1
        · exact Or.inr ⟨c, by simp [hc], S, hS, h⟩

end Acv
