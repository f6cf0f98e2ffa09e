import Verif.Model.SearchCoal
import Verif.Props.SearchReg

/-!
# C131: the search for a regression forest with coalitions
-/

namespace Acv

theorem levelsCoal_eq (players : List (List Nat)) (h : players.length ≤ 25) :
    levelsCoal players = some ((List.range' 0 (players.length + 1)).map (levelOf players)) := by
  unfold levelsCoal
  have e : enumSizes players coalCap (List.range (players.length + 1)) 0 = (List.range (players.length + 1)).map (levelOf players) := by
    rw [enumSizes_eq, enumKeep_full, List.take_length]
    have := sum_choose_lt players.length 0
    have h2 : 2 ^ players.length ≤ 2 ^ 25 := Nat.pow_le_pow_right (by omega) h
    rw [Nat.sub_zero, ← List.range_eq_range'] at this
    unfold coalCap
    omega
  simp only [e]
  rw [← List.range_eq_range']
  apply mapM_some
  intro a ha
  rw [List.getElem?_map, List.getElem?_range (List.mem_range.1 ha)]
  rfl

/-- The value the search of `Search` has to be given: values below the level count for nothing. -/
def atLevel (pi : ℚ) (v : List Nat → ℚ) (S : List Nat) : ℚ := if pi ≤ v S then v S else -1

theorem considerCoal_eq {pi : ℚ} {v : List Nat → ℚ} {S : List Nat} {b : Best} (hb : 0 ≤ b.sdp) {cols : Nat} (hS : S.length ≠ cols) :
    considerCoal pi S (v S) b = consider cols S (atLevel pi v S) b := by
  unfold considerCoal consider atLevel
  simp only [if_neg hS]
  by_cases h : pi ≤ v S
  · simp [h]
  · simp only [h, false_and, if_false]
    rw [if_neg (by linarith)]

theorem considerCoal_nonneg {pi : ℚ} (h0 : 0 < pi) {v : ℚ} {S : List Nat} {b : Best} (hb : 0 ≤ b.sdp) : 0 ≤ (considerCoal pi S v b).sdp := by
  unfold considerCoal
  split
  · next h => exact h0.le.trans h.1
  · exact hb

theorem coalSet_eq {v : Nat → List Nat → ℚ} {pi : ℚ} (h0 : 0 < pi) {cols : Nat} {S : List Nat} (hS : S.length ≠ cols) : ∀ (R : List Nat) (best : Nat → Best),
    (∀ i, 0 ≤ (best i).sdp) → coalSet v pi R best S = scanRows cols S R (R.map fun i => atLevel pi (v i) S) best ∧ ∀ i, 0 ≤ (coalSet v pi R best S i).sdp
  | [], best, hb => ⟨rfl, hb⟩
  | a :: R, best, hb => by
    have hb' : ∀ i, 0 ≤ (upd best a (considerCoal pi S (v a S) (best a)) i).sdp := by
      intro i
      unfold upd
      split
      · exact considerCoal_nonneg h0 (hb a)
      · exact hb i
    obtain ⟨e1, e2⟩ := coalSet_eq h0 hS R _ hb'
    unfold coalSet at e1 e2 ⊢
    rw [List.foldl_cons]
    refine ⟨?_, e2⟩
    rw [e1, considerCoal_eq (hb a) hS]
    rfl

theorem coalCands_eq {v : Nat → List Nat → ℚ} {pi : ℚ} (h0 : 0 < pi) {cols : Nat} (R : List Nat) : ∀ (cands : List (List Nat)), (∀ S ∈ cands, S.length ≠ cols) →
    ∀ best : Nat → Best, (∀ i, 0 ≤ (best i).sdp) →
    cands.foldl (coalSet v pi R) best = cands.foldl (fun best S => scanRows cols S R (R.map fun i => atLevel pi (v i) S) best) best ∧
    ∀ i, 0 ≤ (cands.foldl (coalSet v pi R) best i).sdp
  | [], _, best, hb => ⟨rfl, hb⟩
  | S :: cands, hc, best, hb => by
    obtain ⟨e1, e2⟩ := coalSet_eq (v := v) h0 (hc S (by simp)) R best hb
    rw [List.foldl_cons, List.foldl_cons, ← e1]
    exact coalCands_eq h0 R cands (fun S' h => hc S' (by simp [h])) _ e2

theorem coalLoop_eq {v : Nat → List Nat → ℚ} {pi : ℚ} (h0 : 0 < pi) {cols : Nat} (stop : Bool) (half : Nat) : ∀ (levels : List (List (List Nat))) (st : Batch),
    (∀ c ∈ levels, ∀ S ∈ c, S.length ≠ cols) → (∀ i, 0 ≤ (st.best i).sdp) →
    coalLoop v pi stop half levels st = searchLoop clearTail (fun R S => R.map fun i => atLevel pi (v i) S) cols pi stop half levels st
  | [], _, _, _ => rfl
  | cands :: ls, st, hc, hb => by
    obtain ⟨e1, e2⟩ := coalCands_eq (v := v) h0 st.R cands (hc cands (by simp)) st.best hb
    unfold coalLoop searchLoop scanLevel
    rw [← e1]
    have ih := coalLoop_eq (v := v) h0 stop half ls (closeLevel clearTail pi { st with best := cands.foldl (coalSet v pi st.R) st.best })
      (fun c h => hc c (by simp [h])) (by
        intro i
        unfold closeLevel
        dsimp only
        split
        · exact e2 i
        · exact e2 i)
    dsimp only
    rw [ih]

/-- What the search reports for an observation that reaches the level: a set of columns with its value, the largest of its size, while no set of
fewer players reaches the level; the row is -1 after the columns. -/
def ReportsAt (players : List (List Nat)) (v : List Nat → ℚ) (pi : ℚ) (b : Best) : Prop :=
  ∃ k S, Candidate players k S ∧ b.cols = S.map ((↑) : Nat → Int) ∧ b.len = S.length ∧ (∀ s, S.length ≤ s → b.star s = -1) ∧ b.sdp = v S ∧ pi ≤ v S ∧
    (∀ k' S', k' < k → Candidate players k' S' → v S' < pi) ∧ ∀ S', Candidate players k S' → v S' ≤ v S

theorem oneLoop_cleared (v : List Nat → ℚ) (cols : Nat) (pi : ℚ) (stop : Bool) (half : Nat) : ∀ (levels : List (List (List Nat))) (b : Best), b.sdp < pi →
    pi ≤ (oneLoop clearTail v cols pi stop half levels b).sdp → ∃ b', oneLoop clearTail v cols pi stop half levels b = clearTail b'
  | [], b, h, h' => absurd h' (not_le.2 h)
  | cands :: ls, b, h, h' => by
    unfold oneLoop at h' ⊢
    dsimp only at h' ⊢
    split at h'
    · next h1 => exact ⟨_, by rw [if_pos h1]⟩
    · next h1 =>
      rw [if_neg h1]
      split at h'
      · exact absurd h' h1
      · next h2 =>
        rw [if_neg h2]
        exact oneLoop_cleared v cols pi stop half ls _ (not_le.1 h1) h'

theorem oneLevel_atLevel {v : List Nat → ℚ} {cols : Nat} {pi : ℚ} {cands : List (List Nat)} (hc : ∀ S ∈ cands, S.length ≠ cols) {b : Best} (hb : 0 ≤ b.sdp)
    (h : (oneLevel (atLevel pi v) cols cands b).sdp < pi) : oneLevel (atLevel pi v) cols cands b = b := by
  rcases oneLevel_nofull (atLevel pi v) cols cands b hc with ⟨h1, _⟩ | ⟨S, _, h1, _, h3, _⟩
  · exact h1
  · exfalso
    rw [h1] at h
    unfold atLevel at h h3
    split at h
    · next h4 => exact absurd h (not_lt.2 h4)
    · next h4 => rw [if_neg h4] at h3; linarith

theorem oneLoop_init {v : List Nat → ℚ} {cols : Nat} {pi : ℚ} (stop : Bool) (half : Nat) : ∀ (levels : List (List (List Nat))) (b : Best),
    (∀ c ∈ levels, ∀ S ∈ c, S.length ≠ cols) → 0 ≤ b.sdp → (oneLoop clearTail (atLevel pi v) cols pi stop half levels b).sdp < pi →
    oneLoop clearTail (atLevel pi v) cols pi stop half levels b = b
  | [], _, _, _, _ => rfl
  | cands :: ls, b, hc, hb, h => by
    unfold oneLoop at h ⊢
    dsimp only at h ⊢
    split at h
    · next h1 => exact absurd h (not_lt.2 h1)
    · next h1 =>
      have e := oneLevel_atLevel (v := v) (pi := pi) (hc cands (by simp)) hb (not_le.1 h1)
      rw [if_neg h1]
      split at h
      · next h2 => rw [if_pos h2, e]
      · next h2 =>
        rw [if_neg h2]
        rw [e] at h ⊢
        exact oneLoop_init stop half ls b (fun c h => hc c (by simp [h])) hb h

/-- **C131**: with at most 25 players the search answers. Each observation is either reported with a set of columns and its value, or comes back empty (value 0, no
columns, a row of -1); then no set of columns reaches the level, up to the size at which an early stop ends the search. The importance of a column is the
fraction of the observations that are reported with it. -/
theorem C131_reported (ts : List TreeArr) (y : Row → ℚ) (tX : ℚ) (data X : List Row) {cols : Nat} {C : List (List Nat)}
    (h : SearchArgs cols C (List.range cols)) (h25 : (searchPlayers C (List.range cols)).length ≤ 25) {pi : ℚ} (h0 : 0 < pi) (h1 : pi ≤ 1)
    (stop : Bool) {half : Nat} (hh : 0 < half) :
    ∃ st : Batch, globalSdpRegCoal ts y tX data X cols C pi stop half = some st ∧
      (∀ i x, X[i]? = some x → ReportsAt (searchPlayers C (List.range cols)) (fun S => sdpRegLeaf ts cols y tX data S x) pi (st.best i) ∨
        st.best i = Best.init ∧ ∀ k S, Candidate (searchPlayers C (List.range cols)) k S →
          (stop = false ∨ ∀ k' S', k' < k → Candidate (searchPlayers C (List.range cols)) k' S' → S'.length < half) → sdpRegLeaf ts cols y tX data S x < pi) ∧
      ∀ j, st.importance X.length j = reportedFraction st.best X.length pi j ∧ 0 ≤ st.importance X.length j ∧ st.importance X.length j ≤ 1 := by
  have hp := playersOk h
  have hp' : PlayersOk (cols + 1) (searchPlayers C (List.range cols)) := ⟨hp.nodup, hp.ne, fun c hc => Nat.lt_succ_of_lt (hp.lt c hc)⟩
  have hlen : ∀ k S, Candidate (searchPlayers C (List.range cols)) k S → S.length ≠ cols + 1 := by
    rintro k S ⟨co, hco, -, rfl⟩
    have hs : co.flatten.Sublist (searchPlayers C (List.range cols)).flatten := hco.flatten
    have h2 : co.flatten.length ≤ cols := by
      have := ((hp.nodup.sublist hs).subperm (l₂ := List.range cols) fun c hc => List.mem_range.2 (hp.lt c (hs.subset hc))).length_le
      simpa using this
    omega
  have hlev : ∀ c ∈ (List.range' 0 ((searchPlayers C (List.range cols)).length + 1)).map (levelOf (searchPlayers C (List.range cols))), ∀ S ∈ c,
      S.length ≠ cols + 1 := by
    intro c hc S hS
    obtain ⟨k, -, rfl⟩ := List.mem_map.1 hc
    exact hlen k S (mem_levelOf.1 hS)
  unfold globalSdpRegCoal
  rw [levelsCoal_eq _ h25]
  refine ⟨_, rfl, ?_, ?_⟩
  · intro i x hx
    have hi : i < X.length := by
      by_contra hc
      rw [List.getElem?_eq_none (not_lt.1 hc)] at hx
      cases hx
    have hxd : X.getD i (fun _ => 0) = x := by rw [List.getD_eq_getElem?_getD, hx]; rfl
    dsimp only
    rw [coalLoop_eq h0 stop half _ _ hlev (fun i => le_refl _), batch_best finOk_clearTail (valsOk_map _ X.length) _ pi stop half _ hi]
    rw [hxd]
    obtain ⟨v, hvd⟩ : ∃ v : List Nat → ℚ, ∀ S, sdpRegLeaf ts cols y tX data S x = v S := ⟨_, fun _ => rfl⟩
    simp only [hvd]
    change ReportsAt _ v pi _ ∨ _
    rcases lt_or_ge (oneLoop clearTail (atLevel pi v) (cols + 1) pi stop half
      ((List.range' 0 ((searchPlayers C (List.range cols)).length + 1)).map (levelOf (searchPlayers C (List.range cols)))) Best.init).sdp pi with hlt | hge
    · right
      refine ⟨oneLoop_init stop half _ _ hlev (le_refl _) hlt, ?_⟩
      intro k S hS hs
      have hk : k < 0 + ((searchPlayers C (List.range cols)).length + 1) := by
        obtain ⟨co, hco, rfl, -⟩ := hS
        have := hco.length_le
        omega
      have := sample_none finOk_clearTail hp' (atLevel pi v) h0 h1 0 _ stop half hlt (Nat.zero_le k) hk hS
        (hs.imp id fun hs k' S' _ => hs k' S') hh
      unfold atLevel at this
      split at this
      · exact this
      · next h3 => exact not_le.1 h3
    · left
      obtain ⟨b', hb'⟩ := oneLoop_cleared _ _ _ _ _ _ _ h0 hge
      obtain ⟨k, S, -, hS, hcols, hl, hv, -, hsm, hmax⟩ := sample_reports finOk_clearTail hp' (atLevel pi v) h0 h1 0 _ stop half hge
      have hvS := hv (hlen k S hS)
      unfold sampleResult at hvS hcols hl
      rw [hvS] at hge
      have hpi : pi ≤ v S := by
        unfold atLevel at hge
        split at hge
        · assumption
        · linarith
      have hat : atLevel pi v S = v S := by unfold atLevel; rw [if_pos hpi]
      refine ⟨k, S, hS, hcols, hl, ?_, hvS.trans hat, hpi, ?_, ?_⟩
      · intro s hs
        rw [← hl] at hs
        rw [hb'] at hs ⊢
        unfold clearTail at hs ⊢
        dsimp only at hs ⊢
        rw [if_neg (not_lt.2 hs)]
      · intro k' S' hk' hS'
        have := hsm k' S' (Nat.zero_le _) hk' hS'
        unfold atLevel at this
        split at this
        · exact this
        · next h3 => exact not_le.1 h3
      · intro S' hS'
        have := hmax S' hS'
        rw [hat] at this
        unfold atLevel at this
        split at this
        · exact this
        · next h3 => exact (not_le.1 h3).le.trans hpi
  · intro j
    dsimp only
    rw [coalLoop_eq h0 stop half _ _ hlev (fun i => le_refl _), frequency_of_nodup finOk_clearTail (valsOk_map _ X.length) _ pi stop half hp']
    exact ⟨rfl, reportedFraction_bounds _ _ _ _⟩

/-- **C131, against Python**: for a set that is neither empty nor full, the Python `compute_sdp_reg` returns the value of the search, clamped to [0, 1]. -/
theorem C131_python (ts : List TreeArr) (m : Nat) (y : Row → ℚ) (tX : ℚ) (data : List Row) {S : List Nat} (h : S ≠ []) (hm : S.length ≠ m) (x : Row) :
    sdpRegPy ts m y tX data S x = clamp01 (sdpRegLeaf ts m y tX data S x) := by
  unfold sdpRegPy sdpRegLeaf
  rw [if_neg hm, if_neg h]

/-- One group of one tree, all columns known: only the leaf of `x` counts. -/
theorem regLeafMean_all {t : TreeArr} {m : Nat} (ht : WellFormed t m) {S : List Nat} (hS : ∀ s, s ∈ S ↔ s < m) {x : Row} (hx : OffSplits t x)
    (fx : ℚ) {rows : List Row} (hd : ∀ z ∈ rows, OffSplits t z) :
    regLeafMean [t] m S x fx rows = if cnt rows (t.leafRect (leafAt t x)) (List.range m) = 0 then 0
      else t.value (leafAt t x) 0 * t.value (leafAt t x) 0 - 2 * fx * t.value (leafAt t x) 0 := by
  classical
  have hp : ∀ ℓ ∈ t.leafIdx, (if satCC (t.leafRect ℓ) S x then
      regDiag (cntCC rows (t.leafRect ℓ) (List.range m)) (cntCC rows (t.leafRect ℓ) S) fx (t.value ℓ 0) else 0) =
      if InBox m (t.leafRect ℓ) x then
        regDiag (cnt rows (t.leafRect ℓ) (List.range m)) (cnt rows (t.leafRect ℓ) (List.range m)) fx (t.value ℓ 0) else 0 := by
    intro ℓ hmem
    rw [satCC_eq (offSplits_lo ht hx hmem), cntCC_eq fun z hz => offSplits_lo ht (hd z hz) hmem,
      cntCC_eq fun z hz => offSplits_lo ht (hd z hz) hmem, sat_all hS]
    have hc : cnt rows (t.leafRect ℓ) S = cnt rows (t.leafRect ℓ) (List.range m) := by
      unfold cnt; congr 2; funext z; exact sat_all hS z
    rw [hc]
    by_cases h : sat (t.leafRect ℓ) (List.range m) x = true
    · rw [if_pos h, if_pos (sat_range.mp h)]
    · rw [if_neg h, if_neg (mt sat_range.mpr h)]
  unfold regLeafMean sumTreePairs
  simp only [List.zipIdx_cons, List.zipIdx_nil, List.map_cons, List.map_nil, List.sum_cons, List.sum_nil, add_zero, if_true]
  rw [List.map_congr_left hp, sum_leaf_indicator ht x fun ℓ =>
    regDiag (cnt rows (t.leafRect ℓ) (List.range m)) (cnt rows (t.leafRect ℓ) (List.range m)) fx (t.value ℓ 0)]
  by_cases hc : cnt rows (t.leafRect (leafAt t x)) (List.range m) = 0
  · simp [hc, regDiag]
  · have hc' : (cnt rows (t.leafRect (leafAt t x)) (List.range m) : ℚ) ≠ 0 := by exact_mod_cast hc
    rw [if_neg hc, regDiag_eq]
    field_simp

/-- The value of the full set for a single tree. -/
theorem sdpRegLeaf_full {t : TreeArr} {m : Nat} (ht : WellFormed t m) {base : Nat → ℚ} (hb : base 0 = 0) {y : Row → ℚ}
    (hy : ∀ z, ensemblePredict [t] none none base (full z) 0 = some (y z)) {tX : ℚ} (htX : 0 ≤ tX) {data : List Row} {S : List Nat}
    (hS : ∀ s, s ∈ S ↔ s < m) (hd : ∀ z ∈ data, OffSplits t z) {x : Row} (hx : x ∈ data) (hx0 : y x ≠ 0) : sdpRegLeaf [t] m y tX data S x = 1 := by
  have hg : ∀ z, y z = t.value (leafAt t z) 0 := fun z => by
    have := predict_leafAt (m := m) (by simpa using ht) (hy z)
    rw [hb, sub_zero] at this
    simpa using this.symm
  have hin : ∀ z, sat (t.leafRect (leafAt t x)) (List.range m) z = true ↔ leafAt t z = leafAt t x := fun z => by
    rw [sat_range]; exact inBox_leaf_iff ht z (leafAt_mem ht x)
  have hnofar : cnt (data.filter fun z => farOut tX (y x) (y z)) (t.leafRect (leafAt t x)) (List.range m) = 0 := by
    unfold cnt
    rw [List.length_eq_zero_iff, List.filter_eq_nil_iff]
    intro z hz hs
    have h1 := (hin z).mp hs
    have h2 := (List.mem_filter.mp hz).2
    unfold farOut at h2
    rw [hg x, hg z, h1] at h2
    simp at h2
    linarith
  have hall : cnt data (t.leafRect (leafAt t x)) (List.range m) ≠ 0 := by
    unfold cnt
    rw [Ne, List.length_eq_zero_iff, List.filter_eq_nil_iff]
    exact fun h => h x hx ((hin x).mpr rfl)
  have hnear : cnt (data.filter fun z => !farOut tX (y x) (y z)) (t.leafRect (leafAt t x)) (List.range m) ≠ 0 := by
    unfold cnt
    rw [Ne, List.length_eq_zero_iff, List.filter_eq_nil_iff]
    refine fun h => h x (List.mem_filter.mpr ⟨hx, ?_⟩) ((hin x).mpr rfl)
    unfold farOut
    simpa using htX
  unfold sdpRegLeaf
  simp only
  rw [regLeafMean_all ht hS (hd x hx) (y x) hd, regLeafMean_all ht hS (hd x hx) (y x) fun z hz => hd z (List.mem_filter.mp hz).1,
    regLeafMean_all ht hS (hd x hx) (y x) fun z hz => hd z (List.mem_filter.mp hz).1, if_pos hnofar, if_neg hall, if_neg hnear, guardDiv_eq]
  apply div_self
  rw [← hg x]
  intro h
  apply hx0
  have : y x * y x = 0 := by linarith
  simpa using this

/-- **C131, every observation is explained, partial**: a single tree, an observation of the background whose output is not 0, no entry on a threshold, no early stop.
Missing (false): forests, and outputs that are 0. -/
theorem C131_explained_partial {t : TreeArr} {cols : Nat} (ht : WellFormed t cols) {base : Nat → ℚ} (hb : base 0 = 0) {y : Row → ℚ}
    (hy : ∀ z, ensemblePredict [t] none none base (full z) 0 = some (y z)) {tX : ℚ} (htX : 0 ≤ tX) {data : List Row} (hd : ∀ z ∈ data, OffSplits t z)
    (X : List Row) (h25 : cols ≤ 25) {pi : ℚ} (h0 : 0 < pi) (h1 : pi ≤ 1) {half : Nat} (hh : 0 < half) :
    ∃ st : Batch, globalSdpRegCoal [t] y tX data X cols [[]] pi false half = some st ∧ ∀ i x, X[i]? = some x → x ∈ data → y x ≠ 0 →
      ReportsAt ((List.range cols).map ([·])) (fun S => sdpRegLeaf [t] cols y tX data S x) pi (st.best i) := by
  have hpl : searchPlayers [[]] (List.range cols) = (List.range cols).map ([·]) := by simp [searchPlayers]
  have hargs : SearchArgs cols [[]] (List.range cols) := ⟨List.nodup_range, by simp, by simp, by simp⟩
  obtain ⟨st, e, h2, -⟩ := C131_reported [t] y tX data X hargs (by rw [hpl]; simpa using h25) h0 h1 false hh
  refine ⟨st, e, fun i x hi hx hx0 => ?_⟩
  rcases h2 i x hi with h3 | ⟨-, h3⟩
  · rw [hpl] at h3; exact h3
  · exfalso
    have := h3 cols (List.range cols) ⟨(List.range cols).map ([·]), by rw [hpl], by simp, (flatten_map_single _).symm⟩ (Or.inl rfl)
    rw [sdpRegLeaf_full ht hb hy htX (fun s => List.mem_range) hd hx hx0] at this
    linarith

/-- What a user expects of a search over all sets of columns: all columns together always explain the prediction. -/
def C131_explained_claim : Prop := ∀ (ts : List TreeArr) (cols : Nat) (y : Row → ℚ) (tX pi : ℚ) (data X : List Row) (st : Batch),
  (∀ t ∈ ts, WellFormed t cols) → (∀ z, ensemblePredict ts none none (fun _ => 0) (full z) 0 = some (y z)) → (∀ t ∈ ts, ∀ z ∈ data, OffSplits t z) →
  0 ≤ tX → pi ≤ 1 → globalSdpRegCoal ts y tX data X cols [[]] pi false cols = some st → ∀ i x, X[i]? = some x → x ∈ data → y x ≠ 0 → pi ≤ (st.best i).sdp

/-- **C131 is false**: of a forest of two stumps an observation of the background with output 1 is not explained by any set of columns, and the value of the set of both
columns is 0; `importance_sdp_reg` explains it by both columns. -/
theorem C131_explained_false : ¬ C131_explained_claim ∧
    (∃ st, globalSdpRegCoal regForest regOut 1 regData [row2 0 0] 2 [[]] (9 / 10) false 2 = some st ∧ (st.best 0).sdp = 0 ∧ (st.best 0).cols = []) ∧
    sdpRegLeaf regForest 2 regOut 1 regData [0, 1] (row2 0 0) = 0 ∧
    ∃ st, importanceSdpReg regForest regOut 1 regData [row2 0 0] 2 [[]] (9 / 10) 0 false 2 = some st ∧ (st.best 0).sdp = 1 ∧ (st.best 0).cols = [0, 1] := by
  have key : ∃ st, globalSdpRegCoal regForest regOut 1 regData [row2 0 0] 2 [[]] (9 / 10) false 2 = some st ∧ (st.best 0).sdp = 0 ∧ (st.best 0).cols = [] :=
    ⟨_, rfl, by decide +kernel, by decide +kernel⟩
  refine ⟨fun h => ?_, key, by decide +kernel, ⟨_, rfl, by decide +kernel, by decide +kernel⟩⟩
  obtain ⟨st, e, h2, -⟩ := key
  have := h regForest 2 regOut 1 (9 / 10) regData [row2 0 0] st regForest_wf regForest_out regForest_off (by norm_num) (by norm_num) e 0 (row2 0 0) rfl
    (by simp [regData]) (by decide +kernel)
  rw [h2] at this
  norm_num at this

/-- The hypotheses on a small case: three observations, two of them reported with column 1. -/
example : SearchArgs 2 [[]] (List.range 2) ∧ (searchPlayers [[]] (List.range 2)).length ≤ 25 ∧
    ∃ st, globalSdpRegCoal regForest regOut 1 regData [row2 1 1, row2 0 0, row2 0 1] 2 [[]] (9 / 10) false 2 = some st ∧ (st.best 0).cols = [1] ∧
      (st.best 0).sdp = 351 / 365 ∧ (st.best 1).cols = [] ∧ (st.best 2).cols = [1] ∧ st.importance 3 1 = 2 / 3 :=
  ⟨⟨by decide, by decide, by decide, by decide⟩, by decide, _, rfl, by decide +kernel, by decide +kernel, by decide +kernel, by decide +kernel, by decide +kernel⟩

end Acv
