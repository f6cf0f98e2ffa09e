import Verif.Props.Numbering
import Verif.Props.Search

/-!
# C117: searches on renumbered columns

When the columns to search are given in the renumbered order, the search finds the renumbered sets (`C117_search`). With at most ten columns
the order of the search is the order of the columns, so ties between sets are broken otherwise (`C117_search_small_false`); whether the
level is reached, and the probability of the reported set, are the same (`C117_search_small_partial`).
-/

namespace Acv

variable {π : Equiv.Perm Nat}

/-- A recorded set on the renumbered columns. -/
def renumBest (π : Equiv.Perm Nat) (b : Best) : Best := { b with star := fun s => renumFeature π (b.star s) }

theorem renumFeature_nat (c : Nat) : renumFeature π (c : Int) = (π c : Int) := by simp [renumFeature]

theorem writeRow_renum (S : List Nat) (star : Nat → Int) :
    writeRow (S.map π) (fun s => renumFeature π (star s)) = fun s => renumFeature π (writeRow S star s) := by
  funext s
  unfold writeRow
  rw [List.getElem?_map]
  cases S[s]? with
  | none => rfl
  | some c => exact (renumFeature_nat c).symm

theorem consider_renum (cols : Nat) (S : List Nat) (v : ℚ) (b : Best) :
    consider cols (S.map π) v (renumBest π b) = renumBest π (consider cols S v b) := by
  unfold consider
  simp only [List.length_map]
  have h : (renumBest π b).star = fun s => renumFeature π (b.star s) := rfl
  have h' : (renumBest π b).sdp = b.sdp := rfl
  rw [h, h', writeRow_renum]
  by_cases h1 : b.sdp ≤ v <;> by_cases h2 : S.length = cols <;> simp [h1, h2, renumBest, writeRow_renum]

theorem scanRows_renum (cols : Nat) (S R : List Nat) (vals : List ℚ) (best : Nat → Best) :
    scanRows cols (S.map π) R vals (fun i => renumBest π (best i)) = fun i => renumBest π (scanRows cols S R vals best i) := by
  unfold scanRows
  generalize R.zip vals = l
  induction l generalizing best with
  | nil => rfl
  | cons p l ih =>
    rw [List.foldl_cons, List.foldl_cons, ← ih]
    congr 1
    funext i
    unfold upd
    by_cases h : i = p.1
    · simp only [h, if_true, consider_renum]
    · simp only [h, if_false]

/-- Two states of the search that agree after the renumbering. -/
structure RenumBatch (π : Equiv.Perm Nat) (st st' : Batch) : Prop where
  best : st'.best = fun i => renumBest π (st.best i)
  rows : st'.R = st.R
  glob : ∀ j, st'.glob (π j) = st.glob j

theorem cols_renum (b : Best) : (renumBest π b).cols = b.cols.map (renumFeature π) := by
  unfold Best.cols renumBest
  rw [List.map_map]
  rfl

theorem closeLevel_renum (pi : ℚ) {st st' : Batch} (h : RenumBatch π st st') : RenumBatch π (closeLevel id pi st) (closeLevel id pi st') := by
  have hb : ∀ i, st'.best i = renumBest π (st.best i) := fun i => congrFun h.best i
  have hr : (st'.R.filter fun i => decide (pi ≤ (st'.best i).sdp)) = st.R.filter fun i => decide (pi ≤ (st.best i).sdp) := by
    rw [h.rows]
    exact List.filter_congr fun i _ => by rw [hb i]; rfl
  refine ⟨?_, ?_, fun j => ?_⟩
  · funext i
    simp only [closeLevel, id, ite_self]
    exact hb i
  · simp only [closeLevel]
    rw [hr, h.rows]
  · simp only [closeLevel]
    rw [hr, h.glob j]
    congr 2
    apply List.map_congr_left
    intro i _
    rw [hb i, cols_renum, ← renumFeature_nat j, List.count_map_of_injective _ _ renumFeature_injective]

theorem searchLoop_renum {vals vals' : List Nat → List Nat → List ℚ} (hv : ∀ R S, vals' R (S.map π) = vals R S) (cols : Nat) (pi : ℚ)
    (stop : Bool) (half : Nat) : ∀ (levels : List (List (List Nat))) (st st' : Batch), RenumBatch π st st' →
    RenumBatch π (searchLoop id vals cols pi stop half levels st)
      (searchLoop id vals' cols pi stop half (levels.map (List.map (List.map π))) st')
  | [], _, _, h => h
  | cands :: ls, st, st', h => by
    have h1 : RenumBatch π (scanLevel id vals cols pi cands st) (scanLevel id vals' cols pi (cands.map (List.map π)) st') := by
      unfold scanLevel
      apply closeLevel_renum
      refine ⟨?_, h.rows, h.glob⟩
      show (cands.map (List.map π)).foldl (fun best S => scanRows cols S st'.R (vals' st'.R S) best) st'.best = _
      rw [h.rows, h.best]
      generalize st.best = b
      induction cands generalizing b with
      | nil => rfl
      | cons S cands ih =>
        rw [List.map_cons, List.foldl_cons, List.foldl_cons, hv, scanRows_renum]
        exact ih _
    have h2 : (((cands.map (List.map π)).getLast?).map List.length).getD 0 = (cands.getLast?.map List.length).getD 0 := by
      rw [List.getLast?_map, Option.map_map]
      congr 2
      funext S
      simp
    rw [List.map_cons]
    unfold searchLoop
    simp only [h2, h1.rows]
    split
    · exact h1
    · exact searchLoop_renum hv cols pi stop half ls _ _ h1

theorem enumSizes_renum (players : List (List Nat)) (cap : Nat) : ∀ (ks : List Nat) (count : Nat),
    enumSizes (players.map (List.map π)) cap ks count = (enumSizes players cap ks count).map (List.map (List.map π))
  | [], _ => rfl
  | k :: ks, count => by
    have e : (combos k (players.map (List.map π))).map List.flatten = ((combos k players).map List.flatten).map (List.map π) := by
      rw [combos_map, List.map_map, List.map_map]
      apply List.map_congr_left
      intro c _
      exact flatten_renum c
    unfold enumSizes
    simp only [e, List.length_map, List.map_cons]
    split
    · rfl
    · rw [enumSizes_renum players cap ks]

theorem levelsRf_renum (players : List (List Nat)) (minimal : Nat) :
    levelsRf (players.map (List.map π)) minimal = (levelsRf players minimal).map (List.map (List.map (List.map π))) := by
  unfold levelsRf
  simp only [enumSizes_renum, List.length_map, List.getElem?_map]
  generalize List.range' minimal (players.length + 1 - minimal) = l
  induction l with
  | nil => rfl
  | cons s l ih =>
    rw [List.mapM_cons, List.mapM_cons, ih]
    cases (enumSizes players enumCap (List.range (players.length + 1)) 0)[s]? with
    | none => rfl
    | some a =>
      cases List.mapM (fun s => (enumSizes players enumCap (List.range (players.length + 1)) 0)[s]?) l <;> rfl

theorem searchPlayers_renum (C : List (List Nat)) (space : List Nat) :
    searchPlayers (C.map (List.map π)) (space.map π) = (searchPlayers C space).map (List.map π) := by
  have h0 : (C.map (List.map π)).headD [] ≠ [] ↔ C.headD [] ≠ [] := by
    cases C <;> simp
  unfold searchPlayers
  by_cases h : C.headD [] ≠ []
  · rw [if_pos h, if_pos (h0.2 h), List.map_append, flatten_renum, List.filter_map, List.filter_map, List.map_map, List.map_map]
    congr 1
    · simp only [Function.comp_def, map_mem_iff, List.map_cons, List.map_nil]
    · congr 1
      apply List.filter_congr
      intro g _
      simp only [Function.comp_def, List.any_map, map_mem_iff]
  · rw [if_neg h, if_neg (fun e => h (h0.1 e)), List.map_map, List.map_map]
    rfl

/-- **C117, `global_sdp_rf`**: with the columns to search given in the corresponding order, each sample gets the renumbered set with the same
probability, and the global importance of column `π j` is the old one of column `j`. -/
theorem C117_search_order (sdp sdp' : Nat → List Nat → ℚ) (hv : ∀ i S, sdp' i (S.map π) = sdp i S) (N cols : Nat) (C : List (List Nat))
    (space : List Nat) (pi : ℚ) (minimal : Nat) (stop : Bool) (half : Nat) {st : Batch}
    (h : globalSdpRf sdp N cols C space pi minimal stop half = some st) :
    ∃ st', globalSdpRf sdp' N cols (C.map (List.map π)) (space.map π) pi minimal stop half = some st' ∧
      (∀ i, (st'.best i).sdp = (st.best i).sdp ∧ (st'.best i).cols = (st.best i).cols.map (renumFeature π)) ∧
      ∀ j, st'.glob (π j) = st.glob j := by
  unfold globalSdpRf at h ⊢
  obtain ⟨levels, hl, rfl⟩ := Option.map_eq_some_iff.1 h
  rw [searchPlayers_renum, levelsRf_renum, hl]
  have := searchLoop_renum (π := π) (vals := maskVals sdp N) (vals' := maskVals sdp' N)
    (fun R S => by simp only [maskVals, hv]) cols pi stop half levels (Batch.init N) (Batch.init N) ⟨rfl, rfl, fun _ => rfl⟩
  refine ⟨_, rfl, fun i => ?_, this.glob⟩
  rw [congrFun this.best i, cols_renum]
  exact ⟨rfl, rfl⟩

/-- **C117, `importance_sdp_rf` with more than ten columns**: the columns are searched in an order given by the trees, here the renumbered one.
Each sample gets the renumbered set of columns with the same probability. -/
theorem C117_search {cols : Nat} (hc : 10 < cols) (mems : List Mem) (X : Nat → Row) (yX : Nat → ℚ) (data : Nat → Row) (y : Nat → ℚ)
    (minSize maxDepth N n : Nat) (order : List Nat) (C : List (List Nat)) (pi : ℚ) (minimal : Nat) (stop : Bool) (half : Nat)
    (classifier : Bool) (t : Nat → ℚ × ℚ) {st : Batch}
    (h : importanceSdpRf (fun i S => sdpRf mems S (X i) (yX i) data y minSize maxDepth N classifier (t i)) n cols order C pi minimal stop half =
      some st) :
    ∃ st', importanceSdpRf (fun i S => sdpRf (mems.map (Mem.renum π)) S (renumRow π (X i)) (yX i) (fun i => renumRow π (data i)) y minSize
        maxDepth N classifier (t i)) n cols (order.map π) (C.map (List.map π)) pi minimal stop half = some st' ∧
      (∀ i, (st'.best i).sdp = (st.best i).sdp ∧ (st'.best i).cols = (st.best i).cols.map (renumFeature π)) ∧
      ∀ j, st'.glob (π j) = st.glob j := by
  unfold importanceSdpRf at h ⊢
  rw [if_pos hc] at h ⊢
  rw [← List.map_take]
  exact C117_search_order _ _ (fun i S => (C117_forest mems S (X i) (yX i) data y minSize maxDepth N classifier (t i)).1) n cols C _ pi
    minimal stop half h

-- a search over eleven columns in a given order, and the same with columns 0 and 5 exchanged
example : (∃ st, importanceSdpRf (fun _ S => sdpRf [Mem.ofTree rootSplit leafJunk] S (diag 4) 1 diag (fun i => if i ≤ 1 then 0 else 1) 1 2 4
      true (0, 0)) 1 11 [1, 0] [[]] (9 / 10) 1 false 1 = some st ∧ (st.best 0).cols = [0]) ∧
    ∃ st, importanceSdpRf (fun _ S => sdpRf ([Mem.ofTree rootSplit leafJunk].map (Mem.renum (Equiv.swap 0 5))) S (renumRow (Equiv.swap 0 5)
      (diag 4)) 1 (fun i => renumRow (Equiv.swap 0 5) (diag i)) (fun i => if i ≤ 1 then 0 else 1) 1 2 4 true (0, 0)) 1 11 [1, 5] [[]]
      (9 / 10) 1 false 1 = some st ∧ (st.best 0).cols = [5] := by
  refine ⟨⟨_, rfl, ?_⟩, ⟨_, rfl, ?_⟩⟩ <;> decide +kernel

/-! ## At most ten columns -/

/-- Two searches on spaces with the same columns have the same players up to the order. -/
theorem searchPlayers_perm (C : List (List Nat)) {space space' : List Nat} (h : space.Perm space') :
    (searchPlayers C space).Perm (searchPlayers C space') := by
  unfold searchPlayers
  split
  · refine List.Perm.append ((h.filter _).map _) ?_
    have : (fun g : List Nat => g.any fun c => decide (c ∈ space)) = fun g => g.any fun c => decide (c ∈ space') := by
      funext g
      congr 1
      funext c
      simp only [h.mem_iff]
    rw [this]
  · exact h.map _

theorem candidate_perm {players players' : List (List Nat)} (h : players.Perm players') {k : Nat} {S : List Nat} (hS : Candidate players k S) :
    ∃ S', Candidate players' k S' ∧ S'.Perm S := by
  obtain ⟨co, h1, h2, rfl⟩ := hS
  obtain ⟨co', h3, h4⟩ := (h1.subperm.trans h.subperm : co.Subperm players')
  exact ⟨co'.flatten, ⟨co', h4, by rw [h3.length_eq, h2], rfl⟩, h3.flatten⟩

theorem candidate_map {players : List (List Nat)} {k : Nat} {S : List Nat} (hS : Candidate players k S) :
    Candidate (players.map (List.map π)) k (S.map π) := by
  obtain ⟨co, h1, h2, rfl⟩ := hS
  exact ⟨co.map (List.map π), h1.map _, by simpa using h2, (flatten_renum co).symm⟩

/-- The best probability at the first size that reaches the level, from a report. -/
theorem reports_same {players players' : List (List Nat)} {v v' : List Nat → ℚ} {pi : ℚ} {minimal k k' : Nat} {S S' : List Nat}
    (hto : ∀ k S, Candidate players k S → ∃ S', Candidate players' k S' ∧ v' S' = v S)
    (hfrom : ∀ k S', Candidate players' k S' → ∃ S, Candidate players k S ∧ v S = v' S')
    (h1 : minimal ≤ k) (h2 : Candidate players k S) (h3 : pi ≤ v S)
    (h4 : ∀ k' S', minimal ≤ k' → k' < k → Candidate players k' S' → v S' < pi) (h5 : ∀ S', Candidate players k S' → v S' ≤ v S)
    (g1 : minimal ≤ k') (g2 : Candidate players' k' S') (g3 : pi ≤ v' S')
    (g4 : ∀ k S, minimal ≤ k → k < k' → Candidate players' k S → v' S < pi) (g5 : ∀ S, Candidate players' k' S → v' S ≤ v' S') :
    k = k' ∧ v S = v' S' := by
  have hk : k = k' := by
    rcases lt_trichotomy k k' with hlt | he | hgt
    · obtain ⟨T, hT, e⟩ := hto k S h2
      have := g4 k T h1 hlt hT
      rw [e] at this
      exact absurd h3 (not_le.2 this)
    · exact he
    · obtain ⟨T, hT, e⟩ := hfrom k' S' g2
      have := h4 k' T g1 hgt hT
      rw [e] at this
      exact absurd g3 (not_le.2 this)
  subst hk
  refine ⟨rfl, le_antisymm ?_ ?_⟩
  · obtain ⟨T, hT, e⟩ := hto k S h2
    rw [← e]
    exact g5 T hT
  · obtain ⟨T, hT, e⟩ := hfrom k S' g2
    rw [← e]
    exact h5 T hT

theorem sdpRf_congr (mems : List Mem) {S S' : List Nat} (h : S.Perm S') (x : Row) (yx : ℚ) (data : Nat → Row) (y : Nat → ℚ)
    (minSize maxDepth N : Nat) (classifier : Bool) (t : ℚ × ℚ) :
    sdpRf mems S x yx data y minSize maxDepth N classifier t = sdpRf mems S' x yx data y minSize maxDepth N classifier t := by
  have hd : dirS S x = dirS S' x := by
    funext f thr
    have : inS S f = inS S' f := by
      unfold inS
      simp only [h.mem_iff]
    unfold dirS
    rw [this]
  have hc : cellsSet mems S x data minSize maxDepth N = cellsSet mems S' x data minSize maxDepth N := by
    show (forestRun setInsert S x data minSize maxDepth N mems Rule.init).1 = (forestRun setInsert S' x data minSize maxDepth N mems Rule.init).1
    rw [← forestRunD_dirS, ← forestRunD_dirS, hd]
  unfold sdpRf
  rw [hc]

theorem validArgs_renum {cols : Nat} (hc : cols ≤ 10) (hπ : ∀ j, π j < cols ↔ j < cols) {order : List Nat} {C : List (List Nat)}
    (h : SearchArgs cols C (rfSpace cols order)) : SearchArgs cols (C.map (List.map π)) (rfSpace cols order) := by
  refine ⟨h.space_nodup, h.space_lt, ?_, ?_⟩
  · rw [flatten_renum]
    exact h.groups_nodup.map π.injective
  · intro c hcm
    rw [flatten_renum] at hcm
    obtain ⟨d, hd, rfl⟩ := List.mem_map.1 hcm
    exact (hπ d).2 (h.groups_lt d hd)

theorem range_renum {m : Nat} (hπ : ∀ j, π j < m ↔ j < m) : ((List.range m).map π).Perm (List.range m) := by
  apply (List.perm_ext_iff_of_nodup (List.nodup_range.map π.injective) List.nodup_range).2
  intro j
  simp only [List.mem_map, List.mem_range]
  constructor
  · rintro ⟨i, hi, rfl⟩
    exact (hπ i).2 hi
  · intro hj
    exact ⟨π.symm j, (hπ _).1 (by simpa using hj), by simp⟩

/-- **C117, `importance_sdp_rf` with at most ten columns** (part). If the set of all columns has probability 1 and `stop` is off: a sample
reaches the level on the renumbered columns iff it did before, and then its reported probability is the same. Missing: the reported set, which
depends on the order of the columns when two sets tie (`C117_search_small_false`). -/
theorem C117_search_small_partial {cols : Nat} (hc : cols ≤ 10) (hπ : ∀ j, π j < cols ↔ j < cols) (mems : List Mem) (X : Nat → Row)
    (yX : Nat → ℚ) (data : Nat → Row) (y : Nat → ℚ) (minSize maxDepth N n : Nat) {C : List (List Nat)}
    (hC : SearchArgs cols C (List.range cols)) {pi : ℚ} (h0 : 0 < pi) (h1 : pi ≤ 1) (minimal : Nat) (half : Nat) (hhalf : 0 < half)
    (classifier : Bool) (t : Nat → ℚ × ℚ)
    (hfull : ∀ i < n, sdpRf mems (List.range cols) (X i) (yX i) data y minSize maxDepth N classifier (t i) = 1) :
    ∃ st st', importanceSdpRf (fun i S => sdpRf mems S (X i) (yX i) data y minSize maxDepth N classifier (t i)) n cols [] C pi minimal false
        half = some st ∧
      importanceSdpRf (fun i S => sdpRf (mems.map (Mem.renum π)) S (renumRow π (X i)) (yX i) (fun i => renumRow π (data i)) y minSize
        maxDepth N classifier (t i)) n cols [] (C.map (List.map π)) pi minimal false half = some st' ∧
      ∀ i < n, (pi ≤ (st'.best i).sdp ↔ pi ≤ (st.best i).sdp) ∧ (pi ≤ (st.best i).sdp → (st'.best i).sdp = (st.best i).sdp) := by
  have hsp : rfSpace cols [] = List.range cols := by
    unfold rfSpace
    rw [if_neg (by omega)]
    exact List.take_of_length_le (by simpa using hc)
  have hA : SearchArgs cols C (rfSpace cols []) := by rw [hsp]; exact hC
  have hA' := validArgs_renum hc hπ hA
  set v : Nat → List Nat → ℚ := fun i S => sdpRf mems S (X i) (yX i) data y minSize maxDepth N classifier (t i) with hv
  set v' : Nat → List Nat → ℚ := fun i S => sdpRf (mems.map (Mem.renum π)) S (renumRow π (X i)) (yX i) (fun i => renumRow π (data i)) y
    minSize maxDepth N classifier (t i) with hv'
  have hvv : ∀ i S S', S'.Perm (S.map π) → v' i S' = v i S := by
    intro i S S' hp
    rw [hv, hv']
    simp only
    rw [sdpRf_congr _ hp]
    exact (C117_forest mems S (X i) (yX i) data y minSize maxDepth N classifier (t i)).1
  have hfull : ∀ i < n, ∀ S : List Nat, S.Perm (List.range cols) → v i S = 1 := by
    intro i hi S hS
    rw [hv]
    simp only
    rw [sdpRf_congr _ hS]
    exact hfull i hi
  have hfull' : ∀ i < n, ∀ S : List Nat, S.Perm (List.range cols) → v' i S = 1 := by
    intro i hi S hS
    rw [hvv i (List.range cols) S (hS.trans (range_renum hπ).symm)]
    exact hfull i hi _ (List.Perm.refl _)
  have hpl : (searchPlayers (C.map (List.map π)) (rfSpace cols [])).Perm ((searchPlayers C (rfSpace cols [])).map (List.map π)) := by
    rw [← searchPlayers_renum, hsp]
    exact searchPlayers_perm _ (range_renum hπ).symm
  generalize hP : searchPlayers C (rfSpace cols []) = P at hpl
  generalize hP' : searchPlayers (C.map (List.map π)) (rfSpace cols []) = P' at hpl
  have hto : ∀ i k S, Candidate P k S → ∃ S', Candidate P' k S' ∧ v' i S' = v i S := by
    intro i k S hS
    obtain ⟨S', h2, h3⟩ := candidate_perm hpl.symm (candidate_map (π := π) hS)
    exact ⟨S', h2, hvv i S S' h3⟩
  have hfrom : ∀ i k S', Candidate P' k S' → ∃ S, Candidate P k S ∧ v i S = v' i S' := by
    intro i k S' hS'
    obtain ⟨T, hT, h3⟩ := candidate_perm hpl hS'
    have hT' := candidate_map (π := π.symm) hT
    have e : (P.map (List.map π)).map (List.map π.symm) = P := by simp [List.map_map, Function.comp_def]
    rw [e] at hT'
    refine ⟨_, hT', (hvv i _ _ ?_).symm⟩
    rw [List.map_map]
    simpa using h3.symm
  obtain ⟨st, e, hst⟩ := C29_full_one hA v n h0 h1 minimal false half hfull
  obtain ⟨st2, e2, hst2⟩ := C29_not_found hA v n h0 h1 minimal false half hhalf
  obtain ⟨st', e', hst'⟩ := C29_full_one hA' v' n h0 h1 minimal false half hfull'
  obtain ⟨st2', e2', hst2'⟩ := C29_not_found hA' v' n h0 h1 minimal false half hhalf
  rw [e] at e2
  rw [e'] at e2'
  cases e2
  cases e2'
  rw [hP] at hst hst2
  rw [hP'] at hst' hst2'
  have hiff : ∀ i < n, pi ≤ (st'.best i).sdp ↔ pi ≤ (st.best i).sdp := by
    intro i hi
    constructor
    · intro h
      by_contra hn
      obtain ⟨k, S, a1, a2, _, a4, _⟩ := hst' i hi h
      obtain ⟨T, hT, eT⟩ := hfrom i k S a2
      have := hst2 i hi (not_le.1 hn) k T a1 hT (Or.inl rfl)
      rw [eT, ← a4] at this
      exact absurd h (not_le.2 this)
    · intro h
      by_contra hn
      obtain ⟨k, S, a1, a2, _, a4, _⟩ := hst i hi h
      obtain ⟨T, hT, eT⟩ := hto i k S a2
      have := hst2' i hi (not_le.1 hn) k T a1 hT (Or.inl rfl)
      rw [eT, ← a4] at this
      exact absurd h (not_le.2 this)
  refine ⟨st, st', e, e', fun i hi => ⟨hiff i hi, fun h => ?_⟩⟩
  obtain ⟨k, S, a1, a2, _, a4, a5, a6⟩ := hst i hi h
  have h' := (hiff i hi).2 h
  obtain ⟨k', S', b1, b2, _, b4, b5, b6⟩ := hst' i hi h'
  rw [a4] at h a6 ⊢
  rw [b4] at h' b6 ⊢
  exact (reports_same (hto i) (hfrom i) a1 a2 h a5 a6 b1 b2 h' b5 b6).2.symm

-- the hypotheses hold, and the level is reached, on rows labelled by the split
example : SearchArgs 2 [[]] (List.range 2) ∧
    sdpRf [Mem.ofTree rootSplit leafJunk] (List.range 2) (diag 4) 1 diag (fun i => if i ≤ 1 then 0 else 1) 1 2 4 true (0, 0) = 1 ∧
    sdpRf [Mem.ofTree rootSplit leafJunk] [1] (diag 4) 1 diag (fun i => if i ≤ 1 then 0 else 1) 1 2 4 true (0, 0) < 1 :=
  ⟨⟨by decide, by decide, by decide, by decide⟩, by decide +kernel, by decide +kernel⟩

/-- The claim that the reported set is renumbered too. -/
def C117_search_small_claim : Prop :=
  ∀ (π : Equiv.Perm Nat) (cols : Nat), cols ≤ 10 → (∀ j, π j < cols ↔ j < cols) → ∀ (mems : List Mem) (X : Nat → Row) (yX : Nat → ℚ)
    (data : Nat → Row) (y : Nat → ℚ) (minSize maxDepth N n : Nat) (pi : ℚ), 0 < pi → pi ≤ 1 →
    ∀ st st', importanceSdpRf (fun i S => sdpRf mems S (X i) (yX i) data y minSize maxDepth N true (0, 0)) n cols [] [[]] pi 1 false 1 =
        some st →
      importanceSdpRf (fun i S => sdpRf (mems.map (Mem.renum π)) S (renumRow π (X i)) (yX i) (fun i => renumRow π (data i)) y minSize
        maxDepth N true (0, 0)) n cols [] [[]] pi 1 false 1 = some st' →
      ∀ i < n, ∀ c, c ∈ (st'.best i).cols ↔ c ∈ (st.best i).cols.map (renumFeature π)

/-- **False**: all rows have the label of the sample, so both columns have probability 1; the search keeps the last, in either numbering. -/
theorem C117_search_small_false : ¬ C117_search_small_claim := by
  intro h
  have := h (Equiv.swap 0 1) 2 (by norm_num) (by
      intro j
      rcases j with _ | _ | j
      · simp
      · simp
      · rw [Equiv.swap_apply_of_ne_of_ne (by omega) (by omega)])
    [Mem.ofTree rootSplit leafJunk] (fun _ => diag 4) (fun _ => 1) diag (fun _ => 1) 1 2 4 1 (9 / 10) (by norm_num) (by norm_num)
    _ _ rfl rfl 0 (by norm_num) 1
  revert this
  decide +kernel

end Acv
