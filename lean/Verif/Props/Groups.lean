import Verif.Model.Groups
import Verif.Spec.Groups
import Verif.Props.Clusters
import Verif.Props.ShapPy

/-!
# C105: groups of columns
-/

namespace Acv

/-! ### The groups found by clustering -/

theorem mem_columnGroups {labels : List Int} {g : List Nat} : g ∈ columnGroups labels ↔
    ∃ c ∈ labels, g = (List.range labels.length).filter fun i => decide (labels[i]? = some c) := by
  unfold columnGroups
  simp only [List.mem_map, (List.perm_insertionSort _ _).mem_iff, List.mem_dedup]
  constructor
  · rintro ⟨c, hc, rfl⟩; exact ⟨c, hc, rfl⟩
  · rintro ⟨c, hc, rfl⟩; exact ⟨c, hc, rfl⟩

/-- **C105, the groups.** Whatever labels the clustering gives to the columns, the groups returned split the columns, and two columns are in the
same group exactly when they have the same label; the columns of a group are increasing. -/
theorem C105_groups (labels : List Int) :
    SplitsColumns labels.length (columnGroups labels) ∧
    (∀ i j, i < labels.length → j < labels.length → ((∃ g ∈ columnGroups labels, i ∈ g ∧ j ∈ g) ↔ labels[i]? = labels[j]?)) ∧
    ∀ g ∈ columnGroups labels, g.Pairwise (· < ·) := by
  have hmem : ∀ {c : Int} {i : Nat}, i ∈ (List.range labels.length).filter (fun i => decide (labels[i]? = some c)) ↔ labels[i]? = some c := by
    intro c i
    simp only [List.mem_filter, List.mem_range, decide_eq_true_eq]
    refine ⟨fun h => h.2, fun h => ⟨?_, h⟩⟩
    obtain ⟨h1, _⟩ := List.getElem?_eq_some_iff.1 h
    exact h1
  refine ⟨⟨?_, ?_⟩, ?_, ?_⟩
  · refine (List.perm_ext_iff_of_nodup ?_ List.nodup_range).2 fun i => ?_
    · unfold columnGroups
      rw [List.nodup_flatten]
      refine ⟨?_, ?_⟩
      · intro g hg
        obtain ⟨c, _, rfl⟩ := List.mem_map.1 hg
        exact List.nodup_range.filter _
      · rw [List.pairwise_map]
        have hnd : (labels.dedup.insertionSort (· ≤ ·)).Nodup := (List.perm_insertionSort _ _).nodup_iff.2 (List.nodup_dedup _)
        refine hnd.imp fun {a b} hab => ?_
        intro i hi hj
        rw [hmem] at hi hj
        exact hab (Option.some.inj (hi.symm.trans hj))
    · rw [List.mem_flatten, List.mem_range]
      constructor
      · rintro ⟨g, hg, hi⟩
        obtain ⟨c, _, rfl⟩ := mem_columnGroups.1 hg
        exact List.mem_range.1 (List.mem_filter.1 hi).1
      · intro hi
        refine ⟨_, mem_columnGroups.2 ⟨labels[i], List.getElem_mem hi, rfl⟩, ?_⟩
        rw [hmem, List.getElem?_eq_getElem hi]
  · intro g hg
    obtain ⟨c, hc, rfl⟩ := mem_columnGroups.1 hg
    obtain ⟨i, hi, rfl⟩ := List.getElem_of_mem hc
    refine List.ne_nil_of_mem (a := i) ?_
    rw [hmem, List.getElem?_eq_getElem hi]
  · intro i j hi hj
    constructor
    · rintro ⟨g, hg, h1, h2⟩
      obtain ⟨c, _, rfl⟩ := mem_columnGroups.1 hg
      rw [hmem] at h1 h2
      rw [h1, h2]
    · intro h
      refine ⟨_, mem_columnGroups.2 ⟨labels[i], List.getElem_mem hi, rfl⟩, ?_, ?_⟩
      · rw [hmem, List.getElem?_eq_getElem hi]
      · rw [hmem, ← h, List.getElem?_eq_getElem hi]
  · intro g hg
    obtain ⟨c, _, rfl⟩ := mem_columnGroups.1 hg
    exact List.pairwise_lt_range.filter _

/-- Two groups and a single column. -/
example : columnGroups [1, 0, 1, 2, 0] = [[1, 4], [0, 2], [3]] := by decide +kernel

/-! ### `local_sdp` with its exceptions -/

theorem chainL_short : ∀ {S : List PyVar} {l : List Nat}, PyVar.list l ∈ S → l.length < 2 → chainL S = .error ()
  | .int i :: S, l, h, hl => by
    have : PyVar.list l ∈ S := by simpa using h
    rw [chainL, chainL_short this hl]
    rfl
  | .list l' :: S, l, h, hl => by
    rw [chainL]
    split
    · rename_i h'
      have : PyVar.list l ∈ S := by
        rcases List.mem_cons.1 h with h | h
        · cases h; omega
        · exact h
      rw [chainL_short this hl]
      rfl
    · rfl

theorem foldl_groups (C : List (List Nat)) (hnd : C.flatten.Nodup) (index : List Nat) : ∀ va : List Nat,
    (∀ c ∈ C, ∀ i ∈ c, i ∈ va ↔ i ∈ index) →
    C.foldl (fun va c => if c.all fun i => decide (i ∈ va) then va.filter fun i => decide (i ∉ c) else va) va =
      va.filter fun i => !(C.filter fun c => c.all fun i => decide (i ∈ index)).any fun c => decide (i ∈ c) := by
  induction C with
  | nil => intro va _; simp
  | cons c C ih =>
    intro va h
    rw [List.flatten_cons, List.nodup_append] at hnd
    have e : (c.all fun i => decide (i ∈ va)) = c.all fun i => decide (i ∈ index) :=
      Bool.eq_iff_iff.2 (by
        simp only [List.all_eq_true, decide_eq_true_eq]
        exact forall₂_congr fun i hi => h c (by simp) i hi)
    rw [List.foldl_cons, e, List.filter_cons]
    split
    · rw [ih hnd.2.1]
      · rw [List.filter_filter]
        refine List.filter_congr fun i _ => ?_
        rw [List.any_cons, Bool.not_or, Bool.and_comm, decide_not]
      · intro d hd i hi
        rw [List.mem_filter, decide_eq_true_eq, h d (by simp [hd]) i hi]
        refine and_iff_left fun hic => ?_
        exact hnd.2.2 i hic i (List.mem_flatten.2 ⟨d, hd, hi⟩) rfl
    · exact ih hnd.2.1 va fun d hd => h d (by simp [hd])

theorem hasGroups_long {C : List (List Nat)} (h0 : C ≠ []) (h2 : ∀ c ∈ C, 2 ≤ c.length) : hasGroups C = true := by
  cases C with
  | nil => exact absurd rfl h0
  | cons c C =>
    have := h2 c (by simp)
    cases c with
    | nil => simp at this
    | cons => rfl

theorem sdpPlayers_cols {C : List (List Nat)} (hC : PyGroups C) (index : List Nat) :
    (sdpPlayers C index).map PyVar.cols = clusterPlayers C index ∧ ∀ l, PyVar.list l ∈ sdpPlayers C index → 1 < l.length := by
  rcases hC with rfl | ⟨h0, hnd, h2⟩
  · rw [clusterPlayers_nil]
    simp [sdpPlayers, hasGroups, Function.comp_def, PyVar.cols]
  · unfold sdpPlayers clusterPlayers
    rw [if_pos (hasGroups_long h0 h2), foldl_groups C hnd index index fun _ _ _ _ => Iff.rfl]
    have e : (C.filter fun c => decide (c ≠ []) && c.all fun i => decide (i ∈ index)) = C.filter fun c => c.all fun i => decide (i ∈ index) :=
      List.filter_congr fun c hc => by
        have : c ≠ [] := fun h => by have := h2 c hc; simp [h] at this
        simp [this]
    simp only [e]
    refine ⟨by simp [Function.comp_def, PyVar.cols], ?_⟩
    intro l hl
    rcases List.mem_append.1 hl with hl | hl
    · simp at hl
    · obtain ⟨l', hl', h⟩ := List.mem_map.1 hl
      cases h
      exact h2 l (List.mem_filter.1 hl').1

theorem clusterPlayers_nodup {C : List (List Nat)} (hC : PyGroups C) {index : List Nat} (hnd : index.Nodup) : (clusterPlayers C index).flatten.Nodup := by
  rcases hC with rfl | ⟨h0, hC, h2⟩
  · rwa [clusterPlayers_nil, flatten_singletons]
  · unfold clusterPlayers
    simp only [List.flatten_append]
    rw [flatten_singletons, List.nodup_append]
    refine ⟨hnd.filter _, hC.sublist List.filter_sublist.flatten, ?_⟩
    rintro i hi j hj rfl
    obtain ⟨c, hc, hic⟩ := List.mem_flatten.1 hj
    rw [List.mem_filter, Bool.not_eq_true', List.any_eq_false] at hi
    exact hi.2 c hc (decide_eq_true hic)

theorem bestOfSizeE_ok (f : List Nat → Option ℚ) (p : ℚ) {va : List PyVar} (h : ∀ l, PyVar.list l ∈ va → 1 < l.length) (size : Nat) :
    bestOfSizeE f p va size = .ok (bestOfSize f p (va.map PyVar.cols) size) := by
  unfold bestOfSizeE bestOfSize
  rw [combos_map, List.foldl_map]
  have hs : ∀ c ∈ combos size va, ∀ l, PyVar.list l ∈ c → 1 < l.length := fun c hc l hl => h l ((mem_combos.1 hc).1.subset hl)
  generalize combos size va = L at hs
  generalize (none : Option (ℚ × List Nat)) = b
  induction L generalizing b with
  | nil => rfl
  | cons c L ih =>
    rw [List.foldlM_cons, List.foldl_cons]
    have hc := chainL_ok c (hs c (by simp))
    rw [hc]
    by_cases h0 : c = []
    · subst h0
      simp only [if_true, List.map_nil]
      exact ih (fun c hc => hs c (by simp [hc])) b
    · have h1 : c.map PyVar.cols ≠ [] := by simpa using h0
      simp only [h0, h1, if_false]
      cases f (c.map PyVar.cols).flatten with
      | none => exact ih (fun c hc => hs c (by simp [hc])) b
      | some v => exact ih (fun c hc => hs c (by simp [hc])) _

theorem sizeLoopE_ok (f : List Nat → Option ℚ) (p : ℚ) {va : List PyVar} (h : ∀ l, PyVar.list l ∈ va → 1 < l.length) (sizes : List Nat) :
    ∀ found, sizeLoopE f p va sizes found = .ok (sizeLoop f p (va.map PyVar.cols) sizes found) := by
  induction sizes with
  | nil => intro found; rfl
  | cons k sizes ih =>
    intro found
    unfold sizeLoopE sizeLoop
    rw [bestOfSizeE_ok f p h k]
    cases bestOfSize f p (va.map PyVar.cols) k with
    | some b => rfl
    | none =>
      simp only
      rw [chainL_ok (va.drop _) fun l hl => h l (List.mem_of_mem_drop hl), chainL_ok va h]
      simp only [List.map_drop, List.length_map, ih]
      split <;> rfl

theorem sizeLoop_sublist (f : List Nat → Option ℚ) (p : ℚ) (va : List (List Nat)) (sizes : List Nat) (found : List (List Nat))
    (h : ∀ c ∈ found, c.Sublist va.flatten) : ∀ c ∈ (sizeLoop f p va sizes found).1, c.Sublist va.flatten := by
  induction sizes generalizing found with
  | nil => exact h
  | cons k sizes ih =>
    unfold sizeLoop
    cases hb : bestOfSize f p va k with
    | some b =>
      simp only [List.mem_append, List.mem_singleton]
      rintro c (hc | rfl)
      · exact h c hc
      · obtain ⟨⟨d, hd, _, _, hbd, _⟩, _⟩ := bestOfSize_some hb
        rw [hbd]
        exact hd.flatten
    | none =>
      simp only
      split
      · apply ih
        simp only [List.mem_append, List.mem_singleton]
        rintro c (hc | rfl)
        · exact h c hc
        · exact List.Sublist.refl _
      · exact ih found h

theorem removeCols_ok : ∀ {c index : List Nat}, index.Nodup → c.Nodup → (∀ i ∈ c, i ∈ index) →
    removeCols index c = .ok (index.filter fun i => decide (i ∉ c))
  | [], index, _, _, _ => by simp [removeCols]
  | i :: c, index, hi, hc, h => by
    rw [removeCols, if_pos (h i (by simp)), removeCols_ok (hi.erase i) (List.nodup_cons.1 hc).2]
    · rw [hi.erase_eq_filter, List.filter_filter]
      congr 1
      refine List.filter_congr fun j _ => ?_
      by_cases hj : j = i <;> simp [hj]
    · intro j hj
      rw [hi.mem_erase_iff]
      exact ⟨fun e => (List.nodup_cons.1 hc).1 (e ▸ hj), h j (by simp [hj])⟩

theorem clusterRec_ok (f : ℚ → List Nat → Option ℚ) (p decay : ℚ) {C : List (List Nat)} (hC : PyGroups C) : ∀ (fuel : Nat) (thr : ℚ) (index : List Nat)
    (final : List (List Nat)), index.Nodup → clusterRec f p decay C fuel thr index final = .ok (clusters f p decay C fuel thr index final) := by
  intro fuel
  induction fuel with
  | zero => intro thr index final _; rfl
  | succ fuel ih =>
    intro thr index final hnd
    obtain ⟨e1, e2⟩ := sdpPlayers_cols hC index
    have el : (sdpPlayers C index).length = (clusterPlayers C index).length := by rw [← e1, List.length_map]
    unfold clusterRec clusters
    simp only [sizeLoopE_ok (f thr) p e2, e1, el]
    by_cases h0 : (clusterPlayers C index).length = 0
    · simp only [h0, if_true]
    · simp only [h0, if_false]
      have hsub := sizeLoop_sublist (f thr) p (clusterPlayers C index) (List.range ((clusterPlayers C index).length + 1)) [] (by simp)
      generalize sizeLoop (f thr) p (clusterPlayers C index) (List.range ((clusterPlayers C index).length + 1)) [] = r at hsub ⊢
      cases hl : r.1.getLast? with
      | none => rfl
      | some c =>
        have hc := hsub c (List.mem_of_getLast? hl)
        simp only
        rw [removeCols_ok hnd ((clusterPlayers_nodup hC hnd).sublist hc) fun i hi => clusterPlayers_mem.1 (hc.subset hi)]
        exact ih _ _ _ (hnd.filter _)

/-- **C105, groups of two or more.** With groups of at least two columns without common column (or none), `local_sdp` raises nothing and returns
what `C82_*` say. -/
theorem C105_local_sdp (f : ℚ → List Nat → Option ℚ) (proba decay thr : ℚ) {C : List (List Nat)} (hC : PyGroups C) {index : List Nat}
    (hnd : index.Nodup) : localSdpPy f proba decay thr C index = .ok (localClusters f proba decay thr C index) :=
  clusterRec_ok f proba decay hC _ thr index [] hnd

example : PyGroups [[0, 1]] ∧ [0, 1, 2, 3].Nodup ∧ localSdpPy exValue (9 / 10) (1 / 2) 1 [[0, 1]] [0, 1, 2, 3] = .ok ([[0, 1], [2], [3]], true) :=
  ⟨Or.inr (by decide), by decide, by rw [C105_local_sdp _ _ _ _ (Or.inr (by decide)) (by decide)]; decide +kernel⟩

theorem foldlM_short {f : List Nat → Option ℚ} {p : ℚ} {l : List Nat} (hl : l.length < 2) : ∀ (L : List (List PyVar)) (b : Option (ℚ × List Nat)),
    [PyVar.list l] ∈ L →
    L.foldlM (fun best c =>
      if c = [] then (.ok best : Except Unit (Option (ℚ × List Nat)))
      else
        match chainL c with
        | .error e => .error e
        | .ok S =>
          match f S with
          | none => .ok best
          | some v => .ok (if decide (p ≤ v) && geBest best v then some (v, S) else best)) b = .error ()
  | c :: L, b, h => by
    rw [List.foldlM_cons]
    rcases List.mem_cons.1 h with h | h
    · rw [← h, chainL_short (List.mem_singleton.2 rfl) hl]
      rfl
    · by_cases h0 : c = []
      · simp only [h0, if_true]
        exact foldlM_short hl L b h
      · simp only [h0, if_false]
        cases chainL c with
        | error e => rfl
        | ok S =>
          simp only
          cases f S with
          | none => exact foldlM_short hl L b h
          | some v => exact foldlM_short hl L _ h

/-- **C105, a group of one column is refused.** When one of the groups has a single column of the observation (or a group that is not the first is
empty), `local_sdp` raises `ValueError`, whatever the value function. -/
theorem C105_single_raises (f : ℚ → List Nat → Option ℚ) (proba decay thr : ℚ) {C : List (List Nat)} (hfirst : C.head? ≠ some []) {g index : List Nat}
    (hg : g ∈ C) (h1 : g.length < 2) (hin : ∀ i ∈ g, i ∈ index) : localSdpPy f proba decay thr C index = .error () := by
  have hG : hasGroups C = true := by
    cases C with
    | nil => cases hg
    | cons c C => cases c with
      | nil => exact absurd rfl hfirst
      | cons => rfl
  have hm : PyVar.list g ∈ sdpPlayers C index := by
    unfold sdpPlayers
    rw [if_pos hG]
    refine List.mem_append_right _ (List.mem_map.2 ⟨g, List.mem_filter.2 ⟨hg, ?_⟩, rfl⟩)
    exact List.all_eq_true.2 fun i hi => decide_eq_true (hin i hi)
  have hpos : 0 < (sdpPlayers C index).length := List.length_pos_of_mem hm
  have hb0 : bestOfSizeE (f thr) proba (sdpPlayers C index) 0 = .ok none := by
    unfold bestOfSizeE
    rw [combos]
    rfl
  have hb1 : bestOfSizeE (f thr) proba (sdpPlayers C index) 1 = .error () :=
    foldlM_short h1 _ _ (mem_combos.2 ⟨List.singleton_sublist.2 hm, rfl⟩)
  unfold localSdpPy clusterRec
  simp only
  rw [if_neg (by omega)]
  obtain ⟨n, hn⟩ : ∃ n, (sdpPlayers C index).length = n + 1 := ⟨_, (Nat.succ_pred_eq_of_pos hpos).symm⟩
  have hr : List.range ((sdpPlayers C index).length + 1) = 0 :: 1 :: (List.range n).map (· + 2) := by
    rw [hn, List.range_succ_eq_map, List.range_succ_eq_map]
    simp [Function.comp_def]
  rw [hr]
  have hd : chainL ((sdpPlayers C index).drop ((sdpPlayers C index).length - 0)) = .ok [] := by simp [chainL]
  have h0 : ¬ ([] : List Nat).length = (sdpPlayers C index).length := by simp; omega
  simp only [sizeLoopE, hb0, hd, h0, if_false, hb1]

example : localSdpPy exValue (9 / 10) (1 / 2) 1 [[0, 1], [2]] [0, 1, 2, 3] = .error () :=
  C105_single_raises _ _ _ _ (by decide) (g := [2]) (by decide) (by decide) (by decide)

theorem chainL_ne : ∀ {S : List PyVar} {c : List Nat}, S ≠ [] → chainL S = .ok c → c ≠ []
  | [], _, h, _ => absurd rfl h
  | .int i :: S, c, _, h => by
    rw [chainL] at h
    cases hS : chainL S with
    | error e => rw [hS] at h; cases h
    | ok r => rw [hS] at h; cases h; simp
  | .list l :: S, c, _, h => by
    rw [chainL] at h
    split at h
    · rename_i hl
      cases hS : chainL S with
      | error e => rw [hS] at h; cases h
      | ok r =>
        rw [hS] at h
        cases h
        intro h0
        rw [List.append_eq_nil_iff] at h0
        rw [h0.1] at hl
        simp at hl
    · cases h

theorem bestOfSizeE_ne {f : List Nat → Option ℚ} {p : ℚ} {va : List PyVar} {size : Nat} {b : ℚ × List Nat}
    (h : bestOfSizeE f p va size = .ok (some b)) : b.2 ≠ [] := by
  unfold bestOfSizeE at h
  have key : ∀ (L : List (List PyVar)) (b0 : Option (ℚ × List Nat)), (∀ b, b0 = some b → b.2 ≠ []) → ∀ b,
      L.foldlM (fun best c =>
        if c = [] then (.ok best : Except Unit (Option (ℚ × List Nat)))
        else
          match chainL c with
          | .error e => .error e
          | .ok S =>
            match f S with
            | none => .ok best
            | some v => .ok (if decide (p ≤ v) && geBest best v then some (v, S) else best)) b0 = .ok (some b) → b.2 ≠ [] := by
    intro L
    induction L with
    | nil => intro b0 h0 b hb; cases hb; exact h0 b rfl
    | cons c L ih =>
      intro b0 h0 b hb
      rw [List.foldlM_cons] at hb
      by_cases hc : c = []
      · simp only [hc, if_true] at hb
        exact ih b0 h0 b hb
      · simp only [hc, if_false] at hb
        cases hS : chainL c with
        | error e => simp only [hS] at hb; cases hb
        | ok S =>
          simp only [hS] at hb
          cases hf : f S with
          | none => simp only [hf] at hb; exact ih b0 h0 b hb
          | some v =>
            simp only [hf] at hb
            refine ih _ ?_ b hb
            intro b1 h1
            split at h1
            · cases h1; exact chainL_ne hc hS
            · exact h0 b1 h1
  exact key _ _ (by intro b h; cases h) b h

theorem sizeLoopE_ne {f : List Nat → Option ℚ} {p : ℚ} {va : List PyVar} (hva : va ≠ []) : ∀ (sizes : List Nat) (found : List (List Nat))
    (r : List (List Nat) × Bool), (∀ c ∈ found, c ≠ []) → sizeLoopE f p va sizes found = .ok r → ∀ c ∈ r.1, c ≠ [] := by
  intro sizes
  induction sizes with
  | nil => intro found r h0 h; cases h; exact h0
  | cons k sizes ih =>
    intro found r h0 h
    unfold sizeLoopE at h
    cases hb : bestOfSizeE f p va k with
    | error e => simp only [hb] at h; cases h
    | ok o =>
      cases o with
      | some b =>
        simp only [hb] at h
        cases h
        simp only [List.mem_append, List.mem_singleton]
        rintro c (hc | rfl)
        · exact h0 c hc
        · exact bestOfSizeE_ne hb
      | none =>
        simp only [hb] at h
        cases hd : chainL (va.drop (va.length - k)) with
        | error e => simp only [hd] at h; cases h
        | ok c =>
          simp only [hd] at h
          split at h
          · cases ha : chainL va with
            | error e => simp only [ha] at h; cases h
            | ok all =>
              simp only [ha] at h
              refine ih _ r ?_ h
              simp only [List.mem_append, List.mem_singleton]
              rintro d (hd | rfl)
              · exact h0 d hd
              · exact chainL_ne hva ha
          · exact ih _ r h0 h

theorem removeCols_lt : ∀ {c index rest : List Nat}, removeCols index c = .ok rest → rest.length + c.length = index.length
  | [], index, rest, h => by cases h; rfl
  | i :: c, index, rest, h => by
    rw [removeCols] at h
    split at h
    · rename_i hi
      have := removeCols_lt h
      rw [List.length_erase_of_mem hi] at this
      have := List.length_pos_of_mem hi
      simp only [List.length_cons]
      omega
    · cases h

/-- **C105, `local_sdp` ends.** Whatever the groups, valid or not, every call takes away at least one column: more than one call for each column
is never made. -/
theorem C105_ends (f : ℚ → List Nat → Option ℚ) (proba decay : ℚ) (C : List (List Nat)) : ∀ (fuel : Nat) (thr : ℚ) (index : List Nat)
    (final : List (List Nat)), index.length < fuel →
    clusterRec f proba decay C fuel thr index final = clusterRec f proba decay C (index.length + 1) thr index final := by
  have key : ∀ (n : Nat) (thr : ℚ) (index : List Nat) (final : List (List Nat)) (a b : Nat), index.length ≤ n → index.length < a → index.length < b →
      clusterRec f proba decay C a thr index final = clusterRec f proba decay C b thr index final := by
    intro n
    induction n with
    | zero =>
      intro thr index final a b hn ha hb
      obtain ⟨a, rfl⟩ : ∃ k, a = k + 1 := ⟨a - 1, by omega⟩
      obtain ⟨b, rfl⟩ : ∃ k, b = k + 1 := ⟨b - 1, by omega⟩
      unfold clusterRec
      simp only
      by_cases h0 : (sdpPlayers C index).length = 0
      · simp only [h0, if_true]
      · simp only [h0, if_false]
        cases hr : sizeLoopE (f thr) proba (sdpPlayers C index) (List.range ((sdpPlayers C index).length + 1)) [] with
        | error e => rfl
        | ok r =>
          simp only
          cases hl : r.1.getLast? with
          | none => rfl
          | some c =>
            have hc := sizeLoopE_ne (fun h => h0 (by rw [h]; rfl)) _ _ r (by simp) hr c (List.mem_of_getLast? hl)
            simp only
            cases hrm : removeCols index c with
            | error e => rfl
            | ok rest =>
              have h1 := removeCols_lt hrm
              have h2 := List.length_pos_iff.2 hc
              omega
    | succ n ih =>
      intro thr index final a b hn ha hb
      obtain ⟨a, rfl⟩ : ∃ k, a = k + 1 := ⟨a - 1, by omega⟩
      obtain ⟨b, rfl⟩ : ∃ k, b = k + 1 := ⟨b - 1, by omega⟩
      unfold clusterRec
      simp only
      by_cases h0 : (sdpPlayers C index).length = 0
      · simp only [h0, if_true]
      · simp only [h0, if_false]
        cases hr : sizeLoopE (f thr) proba (sdpPlayers C index) (List.range ((sdpPlayers C index).length + 1)) [] with
        | error e => rfl
        | ok r =>
          simp only
          cases hl : r.1.getLast? with
          | none => rfl
          | some c =>
            have hc := sizeLoopE_ne (fun h => h0 (by rw [h]; rfl)) _ _ r (by simp) hr c (List.mem_of_getLast? hl)
            simp only
            cases hrm : removeCols index c with
            | error e => rfl
            | ok rest =>
              have h1 := removeCols_lt hrm
              have h2 := List.length_pos_iff.2 hc
              exact ih _ _ _ _ _ (by omega) (by omega) (by omega)
  exact fun fuel thr index final h => key index.length thr index final _ _ le_rfl h (Nat.lt_succ_self _)

/-- Groups with a common column: the column is removed twice and the call raises. -/
theorem C105_overlap_raises : localSdpPy (fun _ S => if S.length = 4 then some 1 else some 0) 1 1 1 [[0, 1], [1, 2]] [0, 1, 2] = .error () := by
  have : (localSdpPy (fun _ S => if S.length = 4 then some 1 else some 0) 1 1 1 [[0, 1], [1, 2]] [0, 1, 2]).toOption = none := by decide +kernel
  cases h : localSdpPy (fun _ S => if S.length = 4 then some 1 else some 0) 1 1 1 [[0, 1], [1, 2]] [0, 1, 2] with
  | error e => rfl
  | ok r => rw [h] at this; cases this

/-! ### `py_shap_values` -/

theorem mapM_short {α β : Type} (f : α → Except Unit β) : ∀ {l : List α} {a : α}, a ∈ l → f a = .error () → l.mapM f = .error ()
  | b :: l, a, h, ha => by
    rw [List.mapM_cons]
    rcases List.mem_cons.1 h with rfl | h
    · rw [ha]; rfl
    · rw [mapM_short f h ha]
      cases f b with
      | error e => rfl
      | ok v => rfl

/-- **C105, `py_shap_values` refuses a single column.** When a group has one column `s` and some leaf is reached through `s` and through another
column `j`, `py_shap_values` raises `ValueError`, whatever the data, the observation and the other groups. -/
theorem C105_python_raises {ts : List TreeArr} {t : TreeArr} (ht : t ∈ ts) {m ℓ s j : Nat} (hℓ : ℓ ∈ t.leafIdx) {C : List (List Nat)}
    (hC : ValidGroups m C) (hs : [s] ∈ C) (hsℓ : s ∈ t.leafCols ℓ) (hjℓ : j ∈ t.leafCols ℓ) (hj : j < m) (hne : j ≠ s) (data : List Row) (x : Row)
    (i k : Nat) : shapPy ts m data C x i k = .error () := by
  rcases hC with rfl | ⟨h0, hg, hpd⟩
  · simp at hs
  have hG : hasGroups C = true := by
    cases C with
    | nil => exact absurd rfl h0
    | cons c C =>
      have := (hg c (by simp)).1
      cases c with
      | nil => exact absurd rfl this
      | cons => rfl
  have hnode : ∀ s, s ∈ pyNode C (t.leafCols ℓ) ↔ s ∈ t.leafCols ℓ ∨ ∃ c ∈ C, s ∈ c ∧ ∃ i ∈ c, i ∈ t.leafCols ℓ := by
    intro s
    unfold pyNode
    rw [if_pos hG]
    exact mem_pyNode_fold C _ _ hpd (fun _ _ _ _ => Iff.rfl) s
  obtain ⟨v, hv, hjv, hsv⟩ : ∃ v ∈ (pyPlayers m C).filter fun i => i.cols.all fun s => decide (s ∈ pyNode C (t.leafCols ℓ)), j ∈ v.cols ∧ s ∉ v.cols := by
    by_cases hf : ∃ g ∈ C, j ∈ g
    · obtain ⟨g, hgC, hjg⟩ := hf
      refine ⟨.list g, ?_, hjg, ?_⟩
      · rw [List.mem_filter, List.all_eq_true]
        refine ⟨?_, fun a ha => decide_eq_true ((hnode a).2 (Or.inr ⟨g, hgC, ha, j, hjg, hjℓ⟩))⟩
        unfold pyPlayers
        rw [if_pos hG]
        exact List.mem_append_right _ (List.mem_map.2 ⟨g, hgC, rfl⟩)
      · intro hsg
        have : g ≠ [s] := fun e => by
          rw [e, List.mem_singleton] at hjg
          exact hne hjg
        exact hpd.forall hgC hs this hsg (List.mem_singleton.2 rfl)
    · refine ⟨.int j, ?_, List.mem_singleton.2 rfl, fun h => hne (List.mem_singleton.1 h).symm⟩
      rw [List.mem_filter, List.all_eq_true]
      refine ⟨?_, fun a ha => ?_⟩
      · unfold pyPlayers
        rw [if_pos hG]
        refine List.mem_append_left _ (List.mem_map.2 ⟨j, mem_freeCols.2 ⟨hj, fun g hg hjg => hf ⟨g, hg, hjg⟩⟩, rfl⟩)
      · rw [List.mem_singleton.1 ha]
        exact decide_eq_true ((hnode j).2 (Or.inl hjℓ))
  have hSm : PyVar.list [s] ∈ pySm C (pyNode C (t.leafCols ℓ)) v := by
    unfold pySm
    simp only [hG, if_true]
    refine List.mem_append_right _ (List.mem_map.2 ⟨[s], List.mem_filter.2 ⟨hs, ?_⟩, rfl⟩)
    rw [List.all_eq_true]
    intro a ha
    rw [List.mem_singleton.1 ha, decide_eq_true_eq, List.mem_dedup, List.mem_filter]
    exact ⟨(hnode s).2 (Or.inl hsℓ), decide_eq_true hsv⟩
  have hw : pyLeafWrites m data C (t.leafRect ℓ) (t.leafCols ℓ) x (t.value ℓ k) = .error () := by
    unfold pyLeafWrites
    simp only
    rw [mapM_short _ hv]
    · rfl
    · rw [mapM_short _ (mem_powerset.2 (List.singleton_sublist.2 hSm))]
      · rfl
      · rw [chainL_short (List.mem_singleton.2 rfl) (by simp)]
        rfl
  unfold shapPy
  rw [mapM_short _ ht]
  · rfl
  · unfold shapTreePy
    rw [mapM_short _ hℓ hw]
    rfl

/-! ### The groups found by clustering, given to the functions -/

/-- The groups found by clustering are valid groups. -/
theorem C105_valid {labels : List Int} (h : labels ≠ []) : ValidGroups labels.length (columnGroups labels) := by
  obtain ⟨⟨h1, h2⟩, -, -⟩ := C105_groups labels
  have hnd : (columnGroups labels).flatten.Nodup := h1.nodup_iff.2 List.nodup_range
  refine Or.inr ⟨?_, ?_, (List.nodup_flatten.1 hnd).2⟩
  · intro h0
    rw [h0] at h1
    have := h1.length_eq
    simp at this
    exact h (List.length_eq_zero_iff.1 this.symm)
  · intro g hg
    refine ⟨h2 g hg, (List.nodup_flatten.1 hnd).1 g hg, fun s hs => ?_⟩
    exact List.mem_range.1 (h1.mem_iff.1 (List.mem_flatten.2 ⟨g, hg, hs⟩))

/-- **C105, compiled Shapley values.** With the groups found by clustering, whatever the labels, the compiled `shap_values` returns for every
column the Shapley value of its group in the game of the leaf estimator. -/
theorem C105_shap {ts : List TreeArr} {labels : List Int} (hts : ∀ t ∈ ts, WellFormed t labels.length) (hm : labels.length < ulongMax) {data : List Row}
    (x : Row) (k : Nat) {g : List Nat} {j : Nat} (hg : g ∈ columnGroups labels) (hj : j ∈ g) :
    shapCy ts labels.length data (columnGroups labels) x j k = shapley (columnGroups labels).toFinset (leafGame ts labels.length data x k) g := by
  have hne : labels ≠ [] := by rintro rfl; simp [columnGroups] at hg
  have hp : playerSet labels.length (columnGroups labels) = (columnGroups labels).toFinset := by
    obtain ⟨⟨h1, h2⟩, -, -⟩ := C105_groups labels
    unfold playerSet
    ext c
    simp only [Finset.mem_union, List.mem_toFinset, List.mem_filter, decide_eq_true_eq, Finset.mem_image, Finset.mem_filter, Finset.mem_range]
    constructor
    · rintro (h | ⟨i, ⟨hi, hn⟩, rfl⟩)
      · exact h.1
      · obtain ⟨g, hg, hig⟩ := List.mem_flatten.1 (h1.mem_iff.2 (List.mem_range.2 hi))
        exact absurd hig (hn g hg)
    · exact fun h => Or.inl ⟨h, h2 c h⟩
  rw [← hp]
  exact shapCy_eq hts (C105_valid hne) hm x k (by rw [hp]; simpa using hg) hj

/-- The claim: the groups found by clustering are accepted by `local_sdp`. -/
def C105_claim : Prop :=
  ∀ (f : ℚ → List Nat → Option ℚ) (proba decay thr : ℚ) (labels : List Int), labels ≠ [] →
    ∃ r, localSdpPy f proba decay thr (columnGroups labels) (List.range labels.length) = .ok r

/-- **C105 is false for the Python functions**: a column alone in its cluster makes `local_sdp` raise, whatever the value function and the levels. -/
theorem C105_clustering_false (f : ℚ → List Nat → Option ℚ) (proba decay thr : ℚ) {labels : List Int} {s : Nat} (hs : [s] ∈ columnGroups labels) :
    localSdpPy f proba decay thr (columnGroups labels) (List.range labels.length) = .error () := by
  obtain ⟨⟨h1, h2⟩, -, -⟩ := C105_groups labels
  refine C105_single_raises f proba decay thr ?_ hs (by simp) ?_
  · intro h
    exact h2 [] (List.mem_of_head? h) rfl
  · intro i hi
    exact h1.mem_iff.1 (List.mem_flatten.2 ⟨_, hs, hi⟩)

theorem C105_claim_false : ¬ C105_claim := by
  intro h
  obtain ⟨r, hr⟩ := h (fun _ _ => some 1) 1 1 1 [0, 0, 1] (by decide)
  rw [C105_clustering_false _ _ _ _ (s := 2) (by decide +kernel)] at hr
  cases hr

/-- A leaf reached through columns 0 and 1 of the example tree. -/
example : 4 ∈ exTree.leafIdx ∧ 1 ∈ exTree.leafCols 4 ∧ 0 ∈ exTree.leafCols 4 ∧ ValidGroups 3 [[2], [1]] :=
  ⟨by decide +kernel, by decide +kernel, by decide +kernel, Or.inr (by simp)⟩

end Acv
