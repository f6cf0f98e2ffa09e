import Verif.Model.Sequential
import Verif.Props.Search
import Verif.Props.Parallel
import Verif.Props.MaxVar
import Verif.Props.SdpReg
import Mathlib.Tactic.NormNum

/-! # C90: the variants without parallelism -/

namespace Acv

/-! ## Searches -/

theorem enumKeep_anti (m cap : Nat) : ∀ (l : List Nat) {c c' : Nat}, c' ≤ c → enumKeep m cap l c ≤ enumKeep m cap l c'
  | [], _, _, _ => by simp [enumKeep]
  | k :: ks, c, c', h => by
    have ih := enumKeep_anti m cap ks (c := c + m.choose k) (c' := c' + m.choose k) (by omega)
    simp only [enumKeep]
    split
    · split <;> omega
    · split
      · omega
      · omega

theorem enumKeep_drop (m cap : Nat) : ∀ (j : Nat) (l : List Nat) (c : Nat),
    enumKeep m cap l c ≤ j + enumKeep m cap (l.drop j) 0
  | 0, l, c => by simpa using enumKeep_anti m cap l (Nat.zero_le c)
  | j + 1, [], c => by simp [enumKeep]
  | j + 1, k :: ks, c => by
    have ih := enumKeep_drop m cap j ks (c + m.choose k)
    simp only [enumKeep, List.drop_succ_cons]
    split <;> omega

theorem power_get (players : List (List Nat)) (n s : Nat) :
    (enumSizes players enumCap (List.range n) 0)[s]? =
      if s < enumKeep players.length enumCap (List.range n) 0 then some (levelOf players s) else none := by
  have hk := enumKeep_le players.length enumCap (List.range n) 0
  rw [List.length_range] at hk
  rw [enumSizes_eq, List.getElem?_map, List.getElem?_take]
  split
  · rename_i h
    rw [List.getElem?_range (by omega)]
    rfl
  · rfl

theorem readLoop_eq {vals : List Nat → List Nat → List ℚ} {cols : Nat} {pi : ℚ} {half : Nat} {power : List (List (List Nat))}
    {lev : Nat → List (List Nat)} {K : Nat} (hp : ∀ s, power[s]? = if s < K then some (lev s) else none) :
    ∀ (n a j : Nat) {st0 st : Batch}, K ≤ a + j → readLoop vals cols pi half power (List.range' a n) st0 = some st →
      searchLoop id vals cols pi true half (((List.range' a n).take j).map lev) st0 = st
  | 0, a, j, st0, st, _, h => by
    simp only [List.range'_zero, readLoop] at h
    simpa [searchLoop] using Option.some.inj h
  | n + 1, a, j, st0, st, hK, h => by
    rw [List.range'_succ] at h ⊢
    rw [readLoop, hp a] at h
    by_cases ha : a < K
    · obtain ⟨j, rfl⟩ : ∃ j', j = j' + 1 := ⟨j - 1, by omega⟩
      rw [if_pos ha] at h
      rw [List.take_succ_cons, List.map_cons, searchLoop]
      simp only at h
      simp only [Bool.true_and, Bool.or_eq_true, decide_eq_true_eq]
      split at h
      · rename_i hs
        rw [if_pos hs]
        exact Option.some.inj h
      · rename_i hs
        rw [if_neg hs]
        exact readLoop_eq hp n (a + 1) j (by omega) h
    · rw [if_neg ha] at h
      simp at h

/-- **C90**: whenever the search without parallelism returns, it returns what the parallel search returns with `stop=True`, for
any number of columns, groups, `minimal` and probabilities. -/
theorem C90_search_agrees_partial (sdp : Nat → List Nat → ℚ) (N cols : Nat) (C : List (List Nat)) (pi : ℚ) (minimal half : Nat) (st : Batch)
    (h : globalSdpSeq sdp N cols C pi minimal half = some st) :
    globalSdpClf sdp N cols C (List.range cols) pi minimal true half = st := by
  unfold globalSdpSeq at h
  unfold globalSdpClf levelsClf
  set players := searchPlayers C (List.range cols)
  rw [enumSizes_eq]
  refine readLoop_eq (power_get players (players.length + 1)) _ _ _ ?_ h
  rcases Nat.lt_or_ge (players.length + 1) minimal with hm | hm
  · have := enumKeep_le players.length enumCap (List.range (players.length + 1)) 0
    rw [List.length_range] at this
    omega
  · have := enumKeep_drop players.length enumCap minimal (List.range (players.length + 1)) 0
    have e : (List.range (players.length + 1)).drop minimal = List.range' minimal (players.length + 1 - minimal) := by
      rw [List.range_eq_range', List.drop_range']
      simp
    rwa [e] at this

theorem readLoop_some {vals : List Nat → List Nat → List ℚ} {cols : Nat} {pi : ℚ} {half : Nat} {power : List (List (List Nat))} :
    ∀ (sizes : List Nat) (st0 : Batch), (∀ s ∈ sizes, s < power.length) →
      (readLoop vals cols pi half power sizes st0).isSome
  | [], _, _ => rfl
  | s :: sizes, st0, h => by
    rw [readLoop, List.getElem?_eq_getElem (h s (by simp))]
    simp only
    split
    · rfl
    · exact readLoop_some sizes _ fun a ha => h a (by simp [ha])

/-- **C90**: with at most 15 players (columns and groups) the search without parallelism returns. -/
theorem C90_search_returns (sdp : Nat → List Nat → ℚ) (N cols : Nat) (C : List (List Nat)) (pi : ℚ) (minimal half : Nat)
    (h : (searchPlayers C (List.range cols)).length ≤ 15) :
    globalSdpSeq sdp N cols C pi minimal half = some (globalSdpClf sdp N cols C (List.range cols) pi minimal true half) := by
  have hs : (globalSdpSeq sdp N cols C pi minimal half).isSome := by
    unfold globalSdpSeq
    apply readLoop_some
    intro s hs
    have hl := levelsClf_eq (searchPlayers C (List.range cols)) 0 h
    unfold levelsClf at hl
    rw [Nat.sub_zero, ← List.range_eq_range'] at hl
    rw [hl, List.length_map, List.length_range]
    rw [List.mem_range'_1] at hs
    omega
  obtain ⟨st, hst⟩ := Option.isSome_iff_exists.1 hs
  rw [hst, C90_search_agrees_partial sdp N cols C pi minimal half st hst]

theorem searchPlayers_single (cols : Nat) : searchPlayers [[]] (List.range cols) = (List.range cols).map ([·]) := by
  simp [searchPlayers]

theorem candidate_single {cols k : Nat} {S : List Nat} (h : S ∈ levelOf ((List.range cols).map ([·])) k) : S.length = k := by
  obtain ⟨co, h1, h2, rfl⟩ := mem_levelOf.1 h
  obtain ⟨l, hl, rfl⟩ := List.sublist_map_iff.1 h1
  rw [flatten_map_single]
  simpa using h2

theorem levelOf_ne_nil {players : List (List Nat)} {k : Nat} (h : k ≤ players.length) : levelOf players k ≠ [] := by
  intro he
  have := congrArg List.length he
  rw [levelOf, List.length_map, length_combos, List.length_nil, Nat.choose_eq_zero_iff] at this
  omega

theorem ssize_single {cols k : Nat} (h : k ≤ cols) :
    ((levelOf ((List.range cols).map ([·])) k).getLast?.map List.length).getD 0 = k := by
  have hne := levelOf_ne_nil (players := (List.range cols).map ([·])) (k := k) (by simpa using h)
  rw [List.getLast?_eq_some_getLast hne]
  exact candidate_single (List.getLast_mem hne)

theorem readLoop_half {vals : List Nat → List Nat → List ℚ} {cols : Nat} {pi : ℚ} {half : Nat} {power : List (List (List Nat))}
    {K : Nat} (hp : ∀ s, power[s]? = if s < K then some (levelOf ((List.range cols).map ([·])) s) else none) (hK : half < K) :
    ∀ (n a : Nat) (st0 : Batch), a ≤ half → a + n = cols + 1 → (readLoop vals cols pi half power (List.range' a n) st0).isSome
  | 0, a, st0, _, _ => rfl
  | n + 1, a, st0, ha, hn => by
    rw [List.range'_succ, readLoop, hp a, if_pos (by omega)]
    simp only
    rw [ssize_single (by omega)]
    split
    · rfl
    · exact readLoop_half hp hK n (a + 1) _ (by omega) (by omega)

/-- **C90**: without groups, the search without parallelism returns for at most 16 columns: it stops at half of the columns. `half`
is `X.shape[1]/2`, truncated or not. -/
theorem C90_search_returns_16 (sdp : Nat → List Nat → ℚ) (N cols : Nat) (pi : ℚ) (minimal half : Nat) (hc : cols ≤ 16)
    (hh : half = cols / 2 ∨ half = (cols + 1) / 2) (hm : minimal ≤ half) :
    globalSdpSeq sdp N cols [[]] pi minimal half =
      some (globalSdpClf sdp N cols [[]] (List.range cols) pi minimal true half) := by
  rcases Nat.lt_or_ge cols 16 with hlt | hge
  · exact C90_search_returns sdp N cols [[]] pi minimal half (by rw [searchPlayers_single]; simpa using Nat.le_of_lt_succ hlt)
  · obtain rfl : cols = 16 := by omega
    have hs : (globalSdpSeq sdp N 16 [[]] pi minimal half).isSome := by
      unfold globalSdpSeq
      have hp := power_get (searchPlayers [[]] (List.range 16)) ((searchPlayers [[]] (List.range 16)).length + 1)
      simp only [searchPlayers_single] at hp ⊢
      have hl : ((List.range 16).map ([·])).length = 16 := by simp
      rw [hl] at hp ⊢
      refine readLoop_half hp ?_ _ _ _ hm (by omega)
      have : enumKeep 16 enumCap (List.range (16 + 1)) 0 = 9 := by decide +kernel
      omega
    obtain ⟨st, hst⟩ := Option.isSome_iff_exists.1 hs
    rw [hst, C90_search_agrees_partial sdp N 16 [[]] pi minimal half st hst]

theorem readLoop_levels {vals : List Nat → List Nat → List ℚ} {cols : Nat} {pi : ℚ} {half : Nat} {power : List (List (List Nat))} :
    ∀ (sizes : List Nat) (levels : List (List (List Nat))) (st0 : Batch), sizes.mapM (fun s => power[s]?) = some levels →
      readLoop vals cols pi half power sizes st0 = some (searchLoop id vals cols pi true half levels st0)
  | [], levels, st0, h => by
    rw [List.mapM_nil] at h
    obtain rfl := Option.some.inj h
    rfl
  | s :: sizes, levels, st0, h => by
    rw [List.mapM_cons] at h
    rcases hs : power[s]? with _ | cands
    · rw [hs] at h; simp at h
    · rw [hs] at h
      rcases hl : sizes.mapM (fun s => power[s]?) with _ | ls
      · rw [hl] at h; simp at h
      · rw [hl] at h
        obtain rfl : cands :: ls = levels := by simpa using h
        rw [readLoop, hs, searchLoop]
        simp only [Bool.true_and, Bool.or_eq_true, decide_eq_true_eq]
        split
        · rfl
        · exact readLoop_levels sizes ls _ hl

/-- **C90**, regression: whenever the parallel search with `stop=True` enumerates all sizes, the search without parallelism returns
the same. -/
theorem C90_reg_agrees (sdp : Nat → List Nat → ℚ) (N cols : Nat) (C : List (List Nat)) (pi : ℚ) (minimal half : Nat) (st : Batch)
    (h : globalSdpReg sdp N cols C pi minimal true half = some st) : globalSdpSeq sdp N cols C pi minimal half = some st := by
  unfold globalSdpReg levelsRf at h
  obtain ⟨levels, hl, rfl⟩ := Option.map_eq_some_iff.1 h
  exact readLoop_levels _ _ _ hl

/-- The claim of the documentation, "same as `importance_sdp_clf`, but does not use parallelism". -/
def C90_claim : Prop := ∀ (sdp : Nat → List Nat → ℚ) (N cols : Nat) (C : List (List Nat)) (pi : ℚ) (minimal half : Nat),
  (half = cols / 2 ∨ half = (cols + 1) / 2) → SearchArgs cols C (List.range cols) →
  globalSdpSeq sdp N cols C pi minimal half = some (globalSdpClf sdp N cols C (List.range cols) pi minimal true half)

theorem oneLevel_lt (v : List Nat → ℚ) (cols : Nat) (pi : ℚ) : ∀ (cands : List (List Nat)) (b : Best),
    (∀ S ∈ cands, S.length ≠ cols ∧ v S < pi) → b.sdp < pi → (oneLevel v cols cands b).sdp < pi
  | [], _, _, hb => hb
  | S :: cands, b, h, hb => by
    have hS := h S (by simp)
    refine oneLevel_lt v cols pi cands (consider cols S (v S) b) (fun T hT => h T (by simp [hT])) ?_
    unfold consider
    simp only [if_neg hS.1]
    split
    · exact hS.2
    · exact hb

theorem readLoop_none {sdp : Nat → List Nat → ℚ} {N cols : Nat} {pi : ℚ} {half : Nat} {power : List (List (List Nat))} {K : Nat}
    (hp : ∀ s, power[s]? = if s < K then some (levelOf ((List.range cols).map ([·])) s) else none) (hK : K ≤ half) (hc : half ≤ cols)
    {i : Nat} (hv : ∀ S, S.length < half → sdp i S < pi) :
    ∀ (n a : Nat) (st : Batch), a ≤ K → a + n = cols + 1 → st.R.Sublist (List.range N) → i ∈ st.R → (st.best i).sdp < pi →
      readLoop (fun R S => R.map fun i => sdp i S) cols pi half power (List.range' a n) st = none
  | 0, a, st, ha, hn, _, _, _ => by omega
  | n + 1, a, st, ha, hn, hR, hi, hb => by
    rw [List.range'_succ, readLoop, hp a]
    by_cases hak : a < K
    · rw [if_pos hak]
      simp only
      rw [ssize_single (by omega)]
      have hlt : (oneLevel (sdp i) cols (levelOf ((List.range cols).map ([·])) a) (st.best i)).sdp < pi := by
        refine oneLevel_lt _ _ _ _ _ (fun S hS => ?_) hb
        have := candidate_single hS
        exact ⟨by omega, hv S (by omega)⟩
      have hR' := scanLevel_R (fin := id) (valsOk_map sdp N) cols pi (levelOf ((List.range cols).map ([·])) a) st hR
      have hb' := scanLevel_best (fin := id) (valsOk_map sdp N) cols pi (levelOf ((List.range cols).map ([·])) a) st hR i
      rw [if_pos hi, if_neg (not_le.2 hlt)] at hb'
      have hi' : i ∈ (scanLevel id (fun R S => R.map fun i => sdp i S) cols pi (levelOf ((List.range cols).map ([·])) a) st).R := by
        rw [hR', List.mem_filter]
        exact ⟨hi, by simpa using hlt⟩
      rw [if_neg (by
        rintro (h | h)
        · rw [h] at hi'; simp at hi'
        · omega)]
      refine readLoop_none (N := N) hp hK hc hv n (a + 1) _ hak (by omega) ?_ hi' ?_
      · rw [hR']; exact List.filter_sublist.trans hR
      · rw [hb']; exact hlt
    · rw [if_neg hak]

theorem enumKeep_cut (m cap : Nat) : ∀ (j : Nat) (l : List Nat) (c : Nat),
    cap ≤ c + ((l.take j).map (m.choose ·)).sum → c < cap → enumKeep m cap l c ≤ j
  | 0, l, c, h, hc => by simp at h; omega
  | j + 1, [], c, h, hc => by simp [enumKeep]
  | j + 1, k :: ks, c, h, hc => by
    rw [List.take_succ_cons, List.map_cons, List.sum_cons] at h
    rw [enumKeep]
    split
    · omega
    · rename_i hlt
      have := enumKeep_cut m cap j ks (c + m.choose k) (by omega) (by omega)
      omega

theorem keep_le_8 {cols : Nat} (h : 17 ≤ cols) : enumKeep cols enumCap (List.range (cols + 1)) 0 ≤ 8 := by
  apply enumKeep_cut
  · have e : (List.range (cols + 1)).take 8 = List.range 8 := by
      rw [List.take_range]
      congr 1
      omega
    rw [e]
    have hm : ((List.range 8).map (Nat.choose 17 ·)).sum ≤ ((List.range 8).map (cols.choose ·)).sum :=
      List.sum_le_sum fun k _ => Nat.choose_le_choose k h
    have hv : enumCap ≤ ((List.range 8).map (Nat.choose 17 ·)).sum := by decide +kernel
    omega
  · decide

/-- **C90**: with 17 columns or more and no groups, the search without parallelism reads past the end of its enumeration as soon as
one sample has no set of less than half of the columns that reaches the level. -/
theorem C90_search_out_of_bounds (sdp : Nat → List Nat → ℚ) {N cols half : Nat} {pi : ℚ} (hc : 17 ≤ cols)
    (hh : half = cols / 2 ∨ half = (cols + 1) / 2) (hpi : 0 < pi) {i : Nat} (hi : i < N)
    (hv : ∀ S, S.length < half → sdp i S < pi) : globalSdpSeq sdp N cols [[]] pi 0 half = none := by
  unfold globalSdpSeq
  have hp := power_get (searchPlayers [[]] (List.range cols)) ((searchPlayers [[]] (List.range cols)).length + 1)
  simp only [searchPlayers_single] at hp ⊢
  have hl : ((List.range cols).map ([·])).length = cols := by simp
  rw [hl] at hp ⊢
  have h8 := keep_le_8 hc
  refine readLoop_none (N := N) hp (by omega) (by omega) hv _ _ _ (Nat.zero_le _) (by omega) ?_ ?_ ?_
  · exact List.Sublist.refl _
  · simpa [Batch.init] using hi
  · exact hpi

theorem searchArgs_single (cols : Nat) : SearchArgs cols [[]] (List.range cols) :=
  ⟨List.nodup_range, fun _ h => List.mem_range.1 h, by simp, by simp⟩

theorem C90_claim_false : ¬ C90_claim := by
  intro h
  have h1 := h (fun _ _ => 0) 1 20 [[]] (9 / 10) 0 10 (by decide) (searchArgs_single 20)
  rw [C90_search_out_of_bounds (fun _ _ => 0) (by norm_num) (by decide) (by norm_num) (i := 0) (by norm_num)
    (fun _ _ => by norm_num)] at h1
  simp at h1

/-- The search finds something: two columns, the second one decides. -/
example : ∃ st, globalSdpSeq (fun _ S => if 1 ∈ S then 1 else 0) 1 3 [[]] (9 / 10) 0 2 = some st ∧ (st.best 0).cols = [1] :=
  ⟨_, C90_search_returns _ _ _ _ _ _ _ (by decide), by decide +kernel⟩

/-! ## Shapley values -/

/-- A loop whose body adds `δ a i j` to the cell `(i, j)`. -/
def Adds (f : (Nat → Nat → ℚ) → Nat → Nat → ℚ) (δ : Nat → Nat → ℚ) : Prop := ∀ phi i j, f phi i j = phi i j + δ i j

theorem adds_fold {α : Type} {f : (Nat → Nat → ℚ) → α → Nat → Nat → ℚ} {δ : α → Nat → Nat → ℚ} :
    ∀ (l : List α), (∀ a ∈ l, Adds (fun phi => f phi a) (δ a)) →
      Adds (fun phi => l.foldl f phi) fun i j => (l.map fun a => δ a i j).sum
  | [], _ => fun phi i j => by simp
  | a :: l, h => fun phi i j => by
    have ih := adds_fold l (fun b hb => h b (by simp [hb])) (f phi a) i j
    simp only at ih ⊢
    have ha := h a (by simp) phi i j
    simp only at ha
    rw [List.foldl_cons, ih, ha, List.map_cons, List.sum_cons, add_assoc]

theorem adds_cell (i0 j0 : Nat) (v : ℚ) : Adds (fun phi => addCell phi i0 j0 v) fun i j => if i = i0 ∧ j = j0 then v else 0 := by
  intro phi i j
  simp only [addCell]
  split <;> simp

theorem sum_ite_count (v : ℚ) (j : Nat) : ∀ (g : List Nat), (g.map fun j0 => if j = j0 then v else 0).sum = (g.count j : ℚ) * v
  | [] => by simp
  | a :: g => by
    rw [List.map_cons, List.sum_cons, sum_ite_count v j g, List.count_cons]
    by_cases h : j = a
    · subst h; simp; ring
    · have : ¬ a = j := fun h' => h h'.symm
      simp [h, this]

theorem sum_zipIdx_single {α : Type} (f : α → ℚ) (i : Nat) : ∀ (X : List α) (n : Nat),
    ((X.zipIdx n).map fun xi => if i = xi.2 then f xi.1 else 0).sum = if n ≤ i then ((X[i - n]?).map f).getD 0 else 0
  | [], n => by simp
  | x :: X, n => by
    rw [List.zipIdx_cons, List.map_cons, List.sum_cons, sum_zipIdx_single f i X (n + 1)]
    by_cases h : i = n
    · subst h; simp
    · by_cases h2 : n ≤ i
      · have e : i - n = (i - (n + 1)) + 1 := by omega
        rw [if_neg h, if_pos (by omega), if_pos h2, e, List.getElem?_cons_succ, zero_add]
      · rw [if_neg h, if_neg (by omega), if_neg h2, zero_add]

theorem adds_rows (m : Nat) (data X : List Row) (r : Rect) (v : ℚ) (g : List Nat) (rest : List (List Nat)) (counter : Nat) :
    Adds (fun phi => seqRows m data X r v g rest counter phi) fun i j =>
      ((X[i]?).map fun x => (g.count j : ℚ) * cyTerm m data r x g rest counter * v).getD 0 := by
  intro phi i j
  have h := adds_fold (f := fun phi (xi : Row × Nat) =>
      g.foldl (fun phi j => addCell phi xi.2 j (cyTerm m data r xi.1 g rest counter * v)) phi)
    (δ := fun xi i j => (g.map fun j0 => if i = xi.2 ∧ j = j0 then cyTerm m data r xi.1 g rest counter * v else 0).sum) X.zipIdx
    (fun xi _ => adds_fold g fun j0 _ => adds_cell xi.2 j0 _) phi i j
  simp only at h
  simp only [seqRows]
  rw [h]
  congr 1
  have e : ∀ xi : Row × Nat, (g.map fun j0 => if i = xi.2 ∧ j = j0 then cyTerm m data r xi.1 g rest counter * v else 0).sum
      = if i = xi.2 then (g.count j : ℚ) * cyTerm m data r xi.1 g rest counter * v else 0 := by
    intro xi
    by_cases hi : i = xi.2
    · simp only [hi, true_and, if_true]
      rw [sum_ite_count, mul_assoc]
    · simp [hi]
  simp only [e]
  rw [sum_zipIdx_single (fun x => (g.count j : ℚ) * cyTerm m data r x g rest counter * v) i X 0]
  simp

theorem adds_leaf (m : Nat) (data : List Row) (C : List (List Nat)) (X : List Row) (r : Rect) (vars : List Nat) (v : ℚ) :
    Adds (fun phi => seqLeaf m data C X r vars v phi) fun i j =>
      ((X[i]?).map fun x => cyLeafPhi m data C r vars x j * v).getD 0 := by
  intro phi i j
  have h := adds_fold (f := fun phi va =>
      if va ∈ leafPlayersCy m C vars then
        (List.range (2 ^ ((leafPlayersCy m C vars).erase va).length)).foldl
          (fun phi counter => seqRows m data X r v va ((leafPlayersCy m C vars).erase va) counter phi) phi
      else phi)
    (δ := fun va i j => if va ∈ leafPlayersCy m C vars then
        ((List.range (2 ^ ((leafPlayersCy m C vars).erase va).length)).map fun counter =>
          ((X[i]?).map fun x => (va.count j : ℚ) * cyTerm m data r x va ((leafPlayersCy m C vars).erase va) counter * v).getD 0).sum
      else 0) (playersCy m C) (fun va _ => by
        by_cases hva : va ∈ leafPlayersCy m C vars
        · simp only [hva, if_true]
          exact adds_fold _ fun counter _ => adds_rows m data X r v va _ counter
        · simp only [hva, if_false]
          intro phi i j; simp) phi i j
  simp only at h
  simp only [seqLeaf]
  rw [h]
  congr 1
  rcases hX : X[i]? with _ | x
  · simp
  · simp only [Option.map_some, Option.getD_some, cyLeafPhi]
    rw [← List.sum_map_mul_right]
    congr 1
    apply List.map_congr_left
    intro va _
    split
    · rw [List.sum_map_mul_right]
    · simp

/-- **C90**: the Shapley values without parallelism are those of the parallel function, for every sample of the batch, whatever the
number of variables of a leaf: no table is indexed by the subset number. -/
theorem C90_shap_nopa (ts : List TreeArr) (m : Nat) (data : List Row) (C : List (List Nat)) (X : List Row) (k j : Nat) {i : Nat}
    (hi : i < X.length) : shapSeq ts m data C X k i j = shapCy ts m data C X[i] j k := by
  have h := adds_fold (f := fun phi (t : TreeArr) => t.leafIdx.foldl (fun phi ℓ =>
      seqLeaf m data C X (t.leafRect ℓ) (t.leafCols ℓ) (t.value ℓ k) phi) phi)
    (δ := fun t i j => (t.leafIdx.map fun ℓ =>
      ((X[i]?).map fun x => cyLeafPhi m data C (t.leafRect ℓ) (t.leafCols ℓ) x j * t.value ℓ k).getD 0).sum) ts
    (fun t _ => adds_fold _ fun ℓ _ => adds_leaf m data C X _ _ _) (fun _ _ => 0) i j
  simp only [List.getElem?_eq_getElem hi, Option.map_some, Option.getD_some, zero_add] at h
  unfold shapSeq shapCy
  rw [h]

/-- **C90**: and those of the parallel function under any schedule, when its tables are large enough (C13, C15). -/
theorem C90_shap_parallel (ts : List TreeArr) (m : Nat) (data : List Row) (C : List (List Nat)) (X : List Row) (j k : Nat) {i : Nat}
    (hi : i < X.length) (maxLeaves scaling : Nat) (hmax : ∀ t ∈ ts, t.leafIdx.length ≤ maxLeaves)
    (hbuf : ∀ t ∈ ts, ∀ ℓ ∈ t.leafIdx, ∀ g ∈ leafPlayersCy m C (t.leafCols ℓ),
      ((leafPlayersCy m C (t.leafCols ℓ)).erase g).length ≤ scaling)
    (scheds : List (List Nat)) (scratch : LCell → ℚ)
    (hf : ∀ c ∈ (shapParallel m data C X[i] j k maxLeaves scaling ts scheds scratch 0).2, c.finished) :
    shapSeq ts m data C X k i j = (shapParallel m data C X[i] j k maxLeaves scaling ts scheds scratch 0).1 := by
  rw [C90_shap_nopa ts m data C X k j hi,
    C13_shapley_schedule_independent ts m data C X[i] j k maxLeaves scaling hmax hbuf scheds scratch hf]

/-- A forest for which the tables of the parallel function are too small (`C15_buffers_too_small`), with a value that is not 0. -/
example : shapSeq [deepTree, stump] 3 [fun _ => -1, fun _ => 1, fun n => n] [[]] [fun _ => 1, fun n => n] 0 1 2 ≠ 0 := by
  decide +kernel

end Acv
