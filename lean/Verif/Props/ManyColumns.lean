import Verif.Model.ManyColumns
import Verif.Props.Sequential

/-!
# C132: searches over more than fifteen columns
-/

namespace Acv

theorem lazyLoop_levels {fin : Best → Best} {vals : List Nat → List Nat → List ℚ} {cols : Nat} {pi : ℚ} {stop : Bool} {half : Nat}
    {power : List (List (List Nat))} :
    ∀ (sizes : List Nat) (levels : List (List (List Nat))) (st : Batch), sizes.mapM (fun s => power[s]?) = some levels →
      lazyLoop fin vals cols pi stop half power sizes st = some (searchLoop fin vals cols pi stop half levels st)
  | [], levels, st, h => by
    rw [List.mapM_nil] at h
    obtain rfl := Option.some.inj h
    rfl
  | s :: sizes, levels, st, h => by
    rw [List.mapM_cons] at h
    cases hs : power[s]? with
    | none => simp [hs] at h
    | some cands =>
      cases hm : sizes.mapM (fun s => power[s]?) with
      | none => simp [hs, hm] at h
      | some ls =>
        obtain rfl : cands :: ls = levels := by simpa [hs, hm] using h
        rw [lazyLoop, hs, searchLoop]
        dsimp only
        split
        · rfl
        · exact lazyLoop_levels sizes ls _ hm

/-- What `lazyLoop` returns is the result of the search over the sizes that are enumerated. -/
theorem lazyLoop_eq {fin : Best → Best} {vals : List Nat → List Nat → List ℚ} {cols : Nat} {pi : ℚ} {stop : Bool} {half : Nat}
    {power : List (List (List Nat))} {lev : Nat → List (List Nat)} {K : Nat} (hp : ∀ s, power[s]? = if s < K then some (lev s) else none) :
    ∀ (n a j : Nat) {st0 st : Batch}, K ≤ a + j → lazyLoop fin vals cols pi stop half power (List.range' a n) st0 = some st →
      searchLoop fin vals cols pi stop half (((List.range' a n).take j).map lev) st0 = st
  | 0, a, j, st0, st, _, h => by
    simp only [List.range'_zero, lazyLoop] at h
    simpa [searchLoop] using Option.some.inj h
  | n + 1, a, j, st0, st, hK, h => by
    rw [List.range'_succ] at h ⊢
    rw [lazyLoop, hp a] at h
    by_cases ha : a < K
    · obtain ⟨j, rfl⟩ : ∃ j', j = j' + 1 := ⟨j - 1, by omega⟩
      rw [if_pos ha] at h
      rw [List.take_succ_cons, List.map_cons, searchLoop]
      dsimp only at h ⊢
      split at h
      · rename_i hs
        rw [if_pos hs]
        exact Option.some.inj h
      · rename_i hs
        rw [if_neg hs]
        exact lazyLoop_eq hp n (a + 1) j (by omega) h
    · rw [if_neg ha] at h
      simp at h

/-- **C132**: up to fifteen players, reading the lists one after the other or all before the loop is the same: the results about
`globalSdpReg` and `msdpSearch` are results about the code. -/
theorem C132_up_to_fifteen (sdp : Nat → List Nat → ℚ) (N cols : Nat) (C : List (List Nat)) (space : List Nat) (pi : ℚ) (minimal : Nat)
    (stop : Bool) (half : Nat) :
    ((searchPlayers C (List.range cols)).length ≤ 15 →
      regMany sdp N cols C pi minimal stop half = globalSdpReg sdp N cols C pi minimal stop half) ∧
    ((searchPlayers C space).length ≤ 15 →
      msdpMany sdp N cols C space pi minimal stop half = msdpSearch sdp N cols C space pi minimal stop half) := by
  constructor <;> intro h
  · have hl := levelsRf_eq _ minimal h
    unfold regMany lazySearch globalSdpReg
    rw [hl]
    exact lazyLoop_levels _ _ _ hl
  · have hl := levelsRf_eq _ minimal h
    unfold msdpMany lazySearch msdpSearch
    rw [hl]
    exact lazyLoop_levels _ _ _ hl

theorem lazyLoop_no_stop {fin : Best → Best} {vals : List Nat → List Nat → List ℚ} {cols : Nat} {pi : ℚ} {half : Nat}
    {power : List (List (List Nat))} : ∀ (sizes : List Nat) (st : Batch), (∃ s ∈ sizes, power[s]? = none) →
      lazyLoop fin vals cols pi false half power sizes st = none
  | [], _, h => by simp at h
  | s :: sizes, st, h => by
    rw [lazyLoop]
    cases hs : power[s]? with
    | none => rfl
    | some cands =>
      dsimp only
      rw [if_neg (by simp)]
      refine lazyLoop_no_stop sizes _ ?_
      obtain ⟨s', hs', e⟩ := h
      rcases List.mem_cons.1 hs' with rfl | h'
      · rw [hs] at e; cases e
      · exact ⟨s', h', e⟩

theorem power_short {players : List (List Nat)} (h : 16 ≤ players.length) :
    (enumSizes players enumCap (List.range (players.length + 1)) 0)[players.length]? = none := by
  have := C33_read_beyond h le_rfl
  unfold levelsRf at this
  rw [show players.length + 1 - players.length = 1 by omega] at this
  cases he : (enumSizes players enumCap (List.range (players.length + 1)) 0)[players.length]? with
  | none => rfl
  | some c =>
    rw [List.range'_one, List.mapM_cons, he] at this
    simp at this

/-- **C132**: with `stop=False` and sixteen players or more, there is never a result, whatever the data are. -/
theorem C132_no_stop (sdp : Nat → List Nat → ℚ) (N cols : Nat) (C : List (List Nat)) (space : List Nat) (pi : ℚ) (minimal half : Nat) :
    (16 ≤ (searchPlayers C (List.range cols)).length → minimal ≤ (searchPlayers C (List.range cols)).length →
      regMany sdp N cols C pi minimal false half = none) ∧
    (16 ≤ (searchPlayers C space).length → minimal ≤ (searchPlayers C space).length →
      msdpMany sdp N cols C space pi minimal false half = none) := by
  constructor <;> intro h hm <;>
    exact lazyLoop_no_stop _ _ ⟨_, List.mem_range'_1.2 ⟨hm, by omega⟩, power_short h⟩

/-- **C132**: whatever the number of players, a result is a result of `Reports`: the set that is reported reaches the level, no
smaller set does and no set of the same size has a larger probability. Partial: for the set of all columns the reported probability
is 1 whatever it is (see `C29_full_set_false`). -/
theorem C132_reported_partial {cols : Nat} {C : List (List Nat)} {space : List Nat} (h : SearchArgs cols C space)
    (h' : SearchArgs cols C (List.range cols)) (sdp : Nat → List Nat → ℚ) (N : Nat) {pi : ℚ} (h0 : 0 < pi) (h1 : pi ≤ 1) (minimal : Nat)
    (stop : Bool) (half : Nat) {i : Nat} (hi : i < N) :
    (∀ st, regMany sdp N cols C pi minimal stop half = some st → pi ≤ (st.best i).sdp →
      Reports (searchPlayers C (List.range cols)) cols minimal (sdp i) pi (st.best i)) ∧
    (∀ st, msdpMany sdp N cols C space pi minimal stop half = some st → pi ≤ (st.best i).sdp →
      Reports (searchPlayers C space) cols minimal (sdp i) pi (st.best i)) := by
  have key : ∀ {fin : Best → Best} (_ : FinOk fin) {players : List (List Nat)} (_ : PlayersOk cols players) (st : Batch),
      lazySearch fin (fun R S => R.map fun i => sdp i S) N cols players pi minimal stop half = some st → pi ≤ (st.best i).sdp →
      Reports players cols minimal (sdp i) pi (st.best i) := by
    intro fin hf players hp st e hpi
    have := lazyLoop_eq (power_get players (players.length + 1)) _ _
      (enumKeep players.length enumCap (List.range (players.length + 1)) 0) (by omega) e
    have ht : ∀ j n, (List.range' minimal n).take j = List.range' minimal (min j n) := by
      intro j n
      apply List.ext_getElem (by simp)
      intro i h1 h2
      simp
    rw [ht] at this
    rw [← this, batch_best hf (valsOk_map sdp N) cols pi stop half _ hi] at hpi ⊢
    exact sample_reports hf hp (sdp i) h0 h1 minimal _ stop half hpi
  exact ⟨key finOk_id (playersOk h'), key finOk_clearTail (playersOk h)⟩

theorem lazyLoop_isSome {fin : Best → Best} {sdp : Nat → List Nat → ℚ} {N cols : Nat} {pi : ℚ} {half : Nat} {power : List (List (List Nat))}
    {K : Nat} (hp : ∀ s, power[s]? = if s < K then some (levelOf ((List.range cols).map ([·])) s) else none) (hK : K ≤ half) (hc : half ≤ cols) :
    ∀ (n a : Nat) (st : Batch), a ≤ K → a + n = cols + 1 → (a < K ∨ st.R ≠ []) → st.R.Sublist (List.range N) →
      (∀ i ∈ st.R, (st.best i).sdp < pi) →
      ((lazyLoop fin (fun R S => R.map fun i => sdp i S) cols pi true half power (List.range' a n) st).isSome ↔
        ∀ i ∈ st.R, ∃ k S, a ≤ k ∧ k < K ∧ Candidate ((List.range cols).map ([·])) k S ∧ pi ≤ sdp i S)
  | 0, a, st, ha, hn, _, _, _ => by omega
  | n + 1, a, st, ha, hn, hs, hR, hb => by
    rw [List.range'_succ, lazyLoop, hp a]
    by_cases hak : a < K
    · rw [if_pos hak]
      dsimp only
      rw [ssize_single (by omega)]
      have hR' := scanLevel_R (fin := fin) (valsOk_map sdp N) cols pi (levelOf ((List.range cols).map ([·])) a) st hR
      have hb' := scanLevel_best (fin := fin) (valsOk_map sdp N) cols pi (levelOf ((List.range cols).map ([·])) a) st hR
      have hlen : ∀ S ∈ levelOf ((List.range cols).map ([·])) a, S.length ≠ cols := by
        intro S hS
        have := candidate_single hS
        omega
      -- an observation is resolved exactly if a set of this size reaches the level
      have hres : ∀ i ∈ st.R, ((oneLevel (sdp i) cols (levelOf ((List.range cols).map ([·])) a) (st.best i)).sdp < pi ↔
          ∀ S, Candidate ((List.range cols).map ([·])) a S → sdp i S < pi) := by
        intro i hi
        constructor
        · intro h S hS
          have hS := mem_levelOf.2 hS
          rcases oneLevel_nofull (sdp i) cols _ (st.best i) hlen with ⟨_, h2⟩ | ⟨T, _, h3, _, _, h5⟩
          · exact (h2 S hS).trans (hb i hi)
          · exact lt_of_le_of_lt (h5 S hS) (h3 ▸ h)
        · intro h
          exact oneLevel_lt _ _ _ _ _ (fun S hS => ⟨hlen S hS, h S (mem_levelOf.1 hS)⟩) (hb i hi)
      by_cases hnil : (scanLevel fin (fun R S => R.map fun i => sdp i S) cols pi (levelOf ((List.range cols).map ([·])) a) st).R = []
      · rw [if_pos (by simp [hnil])]
        simp only [Option.isSome_some, true_iff]
        intro i hi
        rw [hR', List.filter_eq_nil_iff] at hnil
        have := hnil i hi
        rw [decide_eq_true_eq, hres i hi] at this
        push Not at this
        obtain ⟨S, hS, hv⟩ := this
        exact ⟨a, S, le_rfl, hak, hS, hv⟩
      · rw [if_neg (by simp only [hnil, decide_false, Bool.false_or, Bool.true_and, decide_eq_true_eq]; omega)]
        rw [lazyLoop_isSome hp hK hc n (a + 1) _ hak (by omega) (Or.inr hnil) (by rw [hR']; exact List.filter_sublist.trans hR) (by
          intro i hi
          rw [hR', List.mem_filter, decide_eq_true_eq] at hi
          rw [hb' i, if_pos hi.1, if_neg (not_le.2 hi.2)]
          exact hi.2)]
        constructor
        · intro h i hi
          by_cases hr : (oneLevel (sdp i) cols (levelOf ((List.range cols).map ([·])) a) (st.best i)).sdp < pi
          · obtain ⟨k, S, h1, h2⟩ := h i (by rw [hR', List.mem_filter, decide_eq_true_eq]; exact ⟨hi, hr⟩)
            exact ⟨k, S, by omega, h2⟩
          · rw [hres i hi] at hr
            push Not at hr
            obtain ⟨S, hS, hv⟩ := hr
            exact ⟨a, S, le_rfl, hak, hS, hv⟩
        · intro h i hi
          rw [hR', List.mem_filter, decide_eq_true_eq, ] at hi
          obtain ⟨k, S, h1, h2, h3, h4⟩ := h i hi.1
          have hka : k ≠ a := by
            rintro rfl
            exact absurd ((hres i hi.1).1 hi.2 S h3) (not_lt.2 h4)
          exact ⟨k, S, by omega, h2, h3, h4⟩
    · rw [if_neg hak]
      rcases hs with hs | hs
      · exact absurd hs hak
      · obtain ⟨i, hi⟩ := List.exists_mem_of_ne_nil _ hs
        simp only [Option.isSome_none, Bool.false_eq_true, false_iff]
        intro h
        obtain ⟨k, S, h1, h2, _⟩ := h i hi
        omega

/-- The sizes that are enumerated: `2^15` sets have not been listed before the last one. -/
theorem enumKeep_sum (m cap : Nat) : ∀ (n a c : Nat), c < cap →
    c + ((List.range' a (enumKeep m cap (List.range' a n) c - 1)).map (m.choose ·)).sum < cap
  | 0, a, c, h => by simpa [enumKeep] using h
  | n + 1, a, c, h => by
    rw [List.range'_succ, enumKeep]
    split
    · simpa using h
    · rename_i hlt
      have ih := enumKeep_sum m cap n (a + 1) (c + m.choose a) (by omega)
      cases hk : enumKeep m cap (List.range' (a + 1) n) (c + m.choose a) with
      | zero => simpa using h
      | succ k =>
        rw [hk] at ih
        rw [show 1 + (k + 1) - 1 = k + 1 by omega, List.range'_succ, List.map_cons, List.sum_cons]
        rw [show k + 1 - 1 = k by omega] at ih
        omega

/-- **C132**: with 17 columns or more, no groups and `stop=True`, there is a result exactly if each of the samples has a set of
columns that reaches the level among the enumerated sizes `minimal ≤ k < K`. `K ≤ 8` is the number of sizes of the enumeration: it
ends with the first size at which `2^15` sets have been listed. -/
theorem C132_answers_iff (sdp : Nat → List Nat → ℚ) (N : Nat) {cols : Nat} (hc : 17 ≤ cols) {pi : ℚ} (hpi : 0 < pi) (minimal half : Nat)
    (hh : half = cols / 2 ∨ half = (cols + 1) / 2) :
    ∃ K, K ≤ 8 ∧ 2 ^ 15 ≤ ((List.range K).map (cols.choose ·)).sum ∧ ((List.range (K - 1)).map (cols.choose ·)).sum < 2 ^ 15 ∧
      (minimal < K →
        ((regMany sdp N cols [[]] pi minimal true half).isSome ↔
          ∀ i < N, ∃ S : List Nat, minimal ≤ S.length ∧ S.length < K ∧ S.Sublist (List.range cols) ∧ pi ≤ sdp i S) ∧
        ((msdpMany sdp N cols [[]] (List.range cols) pi minimal true half).isSome ↔
          ∀ i < N, ∃ S : List Nat, minimal ≤ S.length ∧ S.length < K ∧ S.Sublist (List.range cols) ∧ pi ≤ sdp i S)) := by
  have hp := power_get ((List.range cols).map ([·])) (cols + 1)
  have hl : ((List.range cols).map ([·])).length = cols := by simp
  rw [hl] at hp
  have h8 := keep_le_8 hc
  obtain ⟨n, e1, e2, e3⟩ := C33_cut ((List.range cols).map ([·])) 0
  have hn : n = enumKeep cols enumCap (List.range (cols + 1)) 0 := by
    have e := congrArg List.length e1
    unfold levelsClf at e
    rw [Nat.sub_zero, ← List.range_eq_range', enumSizes_eq, hl] at e
    have hk := enumKeep_le cols enumCap (List.range (cols + 1)) 0
    simp only [List.length_map, List.length_take, List.length_range, List.length_range'] at e hk
    omega
  rw [hl, ← List.range_eq_range'] at e3
  refine ⟨n, by omega, e3 (by omega), ?_, ?_⟩
  · have := enumKeep_sum cols enumCap (cols + 1) 0 0 (by decide)
    rw [← List.range_eq_range', ← List.range_eq_range', ← hn] at this
    simpa [enumCap] using this
  · intro hm
    rw [hn] at hm ⊢
    have key : ∀ fin : Best → Best, ((lazySearch fin (fun R S => R.map fun i => sdp i S) N cols (searchPlayers [[]] (List.range cols)) pi
        minimal true half).isSome ↔ ∀ i < N, ∃ S : List Nat, minimal ≤ S.length ∧
          S.length < enumKeep cols enumCap (List.range (cols + 1)) 0 ∧ S.Sublist (List.range cols) ∧ pi ≤ sdp i S) := by
      intro fin
      unfold lazySearch
      simp only [searchPlayers_single, hl]
      rw [lazyLoop_isSome (N := N) hp (by omega) (by omega) _ _ _ hm.le (by omega) (Or.inl hm) (List.Sublist.refl _) (fun _ _ => hpi)]
      simp only [Batch.init, List.mem_range]
      refine forall₂_congr fun i hi => ⟨?_, ?_⟩
      · rintro ⟨k, S, h1, h2, h3, h4⟩
        have := candidate_single (mem_levelOf.2 h3)
        obtain ⟨co, hco, hk, rfl⟩ := h3
        obtain ⟨l, hl', rfl⟩ := List.sublist_map_iff.1 hco
        rw [flatten_map_single] at h4 this
        exact ⟨l, by omega, by omega, hl', h4⟩
      · rintro ⟨S, h1, h2, h3, h4⟩
        refine ⟨S.length, S, h1, h2, ⟨S.map ([·]), h3.map _, by simp, (flatten_map_single S).symm⟩, h4⟩
    exact ⟨key id, key clearTail⟩

/-- **C132**: with 16 columns, no groups and `stop=True` there is always a result: the search stops at 8 columns, and all sets of at
most 8 columns are enumerated. -/
theorem C132_sixteen (sdp : Nat → List Nat → ℚ) (N : Nat) (pi : ℚ) {minimal : Nat} (hm : minimal ≤ 8) :
    (regMany sdp N 16 [[]] pi minimal true 8).isSome ∧ (msdpMany sdp N 16 [[]] (List.range 16) pi minimal true 8).isSome := by
  have hp := power_get ((List.range 16).map ([·])) (16 + 1)
  have hl : ((List.range 16).map ([·])).length = 16 := by simp
  rw [hl] at hp
  have hk : enumKeep 16 enumCap (List.range (16 + 1)) 0 = 9 := by decide +kernel
  have key : ∀ (fin : Best → Best) (n a : Nat) (st : Batch), a ≤ 8 → a + n = 17 →
      (lazyLoop fin (fun R S => R.map fun i => sdp i S) 16 pi true 8 (enumSizes ((List.range 16).map ([·])) enumCap (List.range (16 + 1)) 0)
        (List.range' a n) st).isSome := by
    intro fin n
    induction n with
    | zero => intro a st _ _; rfl
    | succ n ih =>
      intro a st ha hn
      rw [List.range'_succ, lazyLoop, hp a, if_pos (by omega)]
      dsimp only
      rw [ssize_single (by omega)]
      split
      · rfl
      · rename_i h
        exact ih (a + 1) _ (by
          simp only [Bool.true_and, Bool.or_eq_true, decide_eq_true_eq, not_or] at h
          omega) (by omega)
  unfold regMany msdpMany lazySearch
  simp only [searchPlayers_single, hl]
  exact ⟨key _ _ _ _ hm (by omega), key _ _ _ _ hm (by omega)⟩

/-- The claim that the explanations of samples can be asked for together: if there is a result for each sample alone, there is one
for all, and if there is one for some samples, another sample does not remove it. -/
def C132_claim : Prop := ∀ (sdp : Nat → List Nat → ℚ) (N cols : Nat) (pi : ℚ), 0 < pi → pi ≤ 1 →
  (regMany sdp N cols [[]] pi 0 true ((cols + 1) / 2)).isSome → (regMany sdp (N + 1) cols [[]] pi 0 true ((cols + 1) / 2)).isSome

/-- The first sample is explained by column 0, the second one by no set. -/
def easyHard : Nat → List Nat → ℚ := fun i S => if i = 0 ∧ 0 ∈ S then 1 else 0

theorem easyHard_alone {cols : Nat} (hc : 17 ≤ cols) : (regMany easyHard 1 cols [[]] (9 / 10) 0 true ((cols + 1) / 2)).isSome := by
  obtain ⟨K, h8, h15, hlt, h⟩ := C132_answers_iff easyHard 1 hc (pi := 9 / 10) (by norm_num) 0 ((cols + 1) / 2) (Or.inr rfl)
  have hK : 1 < K := by
    by_contra hK
    have : K = 0 ∨ K = 1 := by omega
    rcases this with rfl | rfl <;> simp at h15
  refine (h (by omega)).1.2 fun i hi => ⟨[0], by simp, by simpa using hK, ?_, ?_⟩
  · obtain rfl : i = 0 := by omega
    exact List.singleton_sublist.2 (List.mem_range.2 (by omega))
  · obtain rfl : i = 0 := by omega
    norm_num [easyHard]

/-- **C132**: one sample that is not explained by less than half of the columns takes the result of all the others away. -/
theorem C132_hard_sample (sdp : Nat → List Nat → ℚ) {N cols : Nat} (hc : 17 ≤ cols) {pi : ℚ} (hpi : 0 < pi) {i : Nat} (hi : i < N)
    (hv : ∀ S, S.length < 8 → sdp i S < pi) :
    regMany sdp N cols [[]] pi 0 true ((cols + 1) / 2) = none ∧
      msdpMany sdp N cols [[]] (List.range cols) pi 0 true ((cols + 1) / 2) = none := by
  obtain ⟨K, h8, h15, hlt, h⟩ := C132_answers_iff sdp N hc hpi 0 ((cols + 1) / 2) (Or.inr rfl)
  have hK : 0 < K := by
    by_contra hK
    obtain rfl : K = 0 := by omega
    simp at h15
  have hn : ¬ ∀ i < N, ∃ S : List Nat, 0 ≤ S.length ∧ S.length < K ∧ S.Sublist (List.range cols) ∧ pi ≤ sdp i S := by
    intro h
    obtain ⟨S, _, h2, _, h4⟩ := h i hi
    exact absurd (hv S (by omega)) (not_lt.2 h4)
  constructor
  · rw [← Option.not_isSome_iff_eq_none, (h hK).1]
    exact hn
  · rw [← Option.not_isSome_iff_eq_none, (h hK).2]
    exact hn

theorem C132_claim_false : ¬ C132_claim := by
  intro h
  have h1 := h easyHard 1 20 (9 / 10) (by norm_num) (by norm_num) (easyHard_alone (by norm_num))
  rw [(C132_hard_sample easyHard (by norm_num) (by norm_num) (i := 1) (by norm_num) (fun S _ => by norm_num [easyHard])).1] at h1
  simp at h1

/-- **C132**: with 17 columns or more, no groups and `stop=True`, a result explains every sample. -/
theorem C132_all_explained (sdp : Nat → List Nat → ℚ) {N cols : Nat} (hc : 17 ≤ cols) {pi : ℚ} (h0 : 0 < pi) (h1 : pi ≤ 1) {half : Nat}
    (hh : half = cols / 2 ∨ half = (cols + 1) / 2) {st : Batch}
    (h : regMany sdp N cols [[]] pi 0 true half = some st ∨ msdpMany sdp N cols [[]] (List.range cols) pi 0 true half = some st)
    {i : Nat} (hi : i < N) : pi ≤ (st.best i).sdp := by
  have hl : ((List.range cols).map ([·])).length = cols := by simp
  have hp := power_get ((List.range cols).map ([·])) (cols + 1)
  rw [hl] at hp
  have h8 := keep_le_8 hc
  have hpl : PlayersOk cols ((List.range cols).map ([·])) := by
    rw [← searchPlayers_single]
    exact playersOk (searchArgs_single cols)
  have key : ∀ {fin : Best → Best}, FinOk fin → lazySearch fin (fun R S => R.map fun i => sdp i S) N cols (searchPlayers [[]] (List.range cols)) pi
      0 true half = some st → pi ≤ (st.best i).sdp := by
    intro fin hf e
    unfold lazySearch at e
    simp only [searchPlayers_single, hl] at e
    have hK : 0 < enumKeep cols enumCap (List.range (cols + 1)) 0 := by
      rw [List.range_succ_eq_map, enumKeep]
      split <;> omega
    have hiff := (lazyLoop_isSome (fin := fin) (sdp := sdp) (N := N) (pi := pi) (half := half) hp (by omega) (by omega) (cols + 1 - 0) 0
      (Batch.init N) (Nat.zero_le _) (by omega) (Or.inl hK) (List.Sublist.refl _) (fun _ _ => h0)).1 (by rw [e]; rfl) i (List.mem_range.2 hi)
    obtain ⟨k, S, _, hk, hS, hv⟩ := hiff
    by_contra hlt
    have := lazyLoop_eq hp _ _ (enumKeep cols enumCap (List.range (cols + 1)) 0) (by omega) e
    have ht : ∀ j n, (List.range' 0 n).take j = List.range' 0 (min j n) := by
      intro j n
      apply List.ext_getElem (by simp)
      intro i h1 h2
      simp
    rw [ht] at this
    rw [← this, batch_best hf (valsOk_map sdp N) cols pi true half _ hi] at hlt
    refine absurd (sample_none hf hpl (sdp i) h0 h1 0 _ true half (not_le.1 hlt) (Nat.zero_le k) (by omega) hS (Or.inr ?_) (by omega)) (not_lt.2 hv)
    intro k' S' _ hk' hS'
    have := candidate_single (mem_levelOf.2 hS')
    omega
  rcases h with h | h
  · exact key finOk_id h
  · exact key finOk_clearTail h

/-- With 20 columns and one sample there is a result, and the sample is reported with a set that reaches the level. -/
example : ∃ st, regMany easyHard 1 20 [[]] (9 / 10) 0 true 10 = some st ∧
    Reports (searchPlayers [[]] (List.range 20)) 20 0 (easyHard 0) (9 / 10) (st.best 0) := by
  obtain ⟨st, h⟩ := Option.isSome_iff_exists.1 (easyHard_alone (cols := 20) (by norm_num))
  exact ⟨st, h, (C132_reported_partial (searchArgs_single 20) (searchArgs_single 20) easyHard 1 (by norm_num) (by norm_num) 0 true 10
    (i := 0) (by norm_num)).1 st h (C132_all_explained easyHard (by norm_num) (by norm_num) (by norm_num) (Or.inl rfl) (Or.inl h)
      (by norm_num))⟩

end Acv
