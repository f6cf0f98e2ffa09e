import Verif.Lemmas.ActiveShap
import Verif.Props.ShapPy

/-!
# C16-C18: Active Shapley values
-/

namespace Acv

theorem groupUp_mem (free : List Nat) : ∀ (is : List Nat) (buff : List (List Nat)) (c : List Nat),
    c ∈ groupUp free is buff → (∃ i ∈ is, c = [i]) ∨ (c ∈ buff ∧ ∃ i ∈ is, i ∈ c)
  | [], _, c, h => by simp [groupUp] at h
  | i :: is, buff, c, h => by
    unfold groupUp at h
    split at h
    · rcases List.mem_cons.mp h with rfl | h
      · exact Or.inl ⟨i, by simp, rfl⟩
      · rcases groupUp_mem free is buff c h with ⟨k, hk, rfl⟩ | ⟨hc, k, hk, hkc⟩
        · exact Or.inl ⟨k, by simp [hk], rfl⟩
        · exact Or.inr ⟨hc, k, by simp [hk], hkc⟩
    · split at h
      · rcases groupUp_mem free is buff c h with ⟨k, hk, rfl⟩ | ⟨hc, k, hk, hkc⟩
        · exact Or.inl ⟨k, by simp [hk], rfl⟩
        · exact Or.inr ⟨hc, k, by simp [hk], hkc⟩
      · rename_i c0 hf
        have hc0 : c0 ∈ buff := List.mem_of_find?_eq_some hf
        have hic0 : i ∈ c0 := by simpa using List.find?_some hf
        rcases List.mem_cons.mp h with rfl | h
        · exact Or.inr ⟨hc0, i, by simp, hic0⟩
        · rcases groupUp_mem free is _ c h with ⟨k, hk, rfl⟩ | ⟨hc, k, hk, hkc⟩
          · exact Or.inl ⟨k, by simp [hk], rfl⟩
          · exact Or.inr ⟨List.mem_of_mem_erase hc, k, by simp [hk], hkc⟩

theorem activePlayers_ne_nil (C : List (List Nat)) {S : List Nat} (hS : S ≠ []) : activePlayersCy C S ≠ [] := by
  obtain ⟨i, is, rfl⟩ := List.exists_cons_of_ne_nil hS
  unfold activePlayersCy
  split
  · unfold groupUp
    split
    · simp
    · rename_i hf
      have hi : i ∈ C.flatten := by
        by_contra h
        exact hf (by simp only [activeFree, List.mem_filter]; exact ⟨by simp, by simpa using h⟩)
      obtain ⟨c, hc, hic⟩ := List.mem_flatten.mp hi
      cases hfd : C.find? (fun c => decide (i ∈ c)) with
      | none => exact absurd hic (by simpa using List.find?_eq_none.mp hfd c hc)
      | some c => simp
  · simp

/-- **C16.** For every ensemble (no assumption on the trees), data, observation, null list `N` and non-empty active list
`S` that no coalition straddles, every column outside `S` gets exactly 0 (not NaN, whatever the data). -/
theorem C16_null_variables_zero (ts : List TreeArr) (m : Nat) (data : List Row) (C : List (List Nat)) (S N : List Nat)
    (hS : S ≠ []) (hstr : ∀ g ∈ C, (∀ s ∈ g, s ∈ S) ∨ ∀ s ∈ g, s ∉ S) (x : Row) (k : Nat) {j : Nat} (hj : j ∉ S) :
    activeCy ts m data C S N x j k = some 0 := by
  have hpl : ∀ va ∈ activePlayersCy C S, j ∉ va := by
    intro va hva hjva
    unfold activePlayersCy at hva
    split at hva
    · rcases groupUp_mem _ _ _ _ hva with ⟨i, hi, rfl⟩ | ⟨hc, i, hi, hic⟩
      · rw [List.mem_singleton.mp hjva] at hj; exact hj hi
      · rcases hstr va hc with h | h
        · exact hj (h j hjva)
        · exact h i hic hi
    · obtain ⟨i, hi, rfl⟩ := List.mem_map.mp hva
      rw [List.mem_singleton.mp hjva] at hj; exact hj hi
  have hcell : cellWrites (ts.flatMap fun t => t.leafIdx.flatMap fun ℓ =>
      activeLeafWrites m data C S N (t.leafRect ℓ) (t.leafCols ℓ) x (t.value ℓ k)) j = [] := by
    simp only [cellWrites_flatMap, List.flatMap_eq_nil_iff]
    intro t _ ℓ _
    unfold activeLeafWrites
    simp only [cellWrites_flatMap, List.flatMap_eq_nil_iff]
    intro va hva
    have h0 : va.count j = 0 := List.count_eq_zero_of_not_mem (hpl va hva)
    split
    · simp [cellWrites_flatMap, cellWrites_map_const, h0]
    · simp [cellWrites_map_const, h0]
  have hlen : ((activePlayersCy C S).length : ℚ) ≠ 0 := by
    have := List.length_pos_of_ne_nil (activePlayers_ne_nil C hS); positivity
  unfold activeCy
  rw [hcell]
  simp [osum, npDiv, hlen]

example : ([0] : List Nat) ≠ [] ∧ (∀ g ∈ [[2, 1]], (∀ s ∈ g, s ∈ [0]) ∨ ∀ s ∈ g, s ∉ [0]) ∧
    activeCy [exTree] 3 exData [[2, 1]] [0] [1, 2] (fun _ => 2) 0 0 = some (5 / 2) ∧
    activeCy [exTree] 3 exData [[2, 1]] [0] [1, 2] (fun _ => 2) 1 0 = some 0 := by decide +kernel

/-- Both hypotheses of C16 are needed: a coalition that straddles `S` gives value to columns outside `S` ... -/
theorem C16_straddling_coalition_nonzero :
    ValidGroups 3 [[0, 1]] ∧ activeCy [exTree] 3 exData [[0, 1]] [0] [1, 2] (fun _ => 2) 1 0 = some (5 / 2) :=
  ⟨Or.inr (by simp), by decide +kernel⟩

/-- ... and with an empty active list every entry is NaN. -/
theorem C16_empty_active_nan : activeCy [exTree] 3 exData [[]] [] [0, 1, 2] (fun _ => 2) 1 0 = none := by decide +kernel

/-- **C17, characterisation.** If every leaf contains a background row and `S`, `N` split the columns, the value of an
active column is the Shapley value of its player in the active game. -/
theorem C17_active_is_shapley_value {ts : List TreeArr} {m : Nat} (hts : ∀ t ∈ ts, WellFormed t m) {data : List Row}
    {C : List (List Nat)} (hC : ValidGroups m C) (hm : m < ulongMax) {S N : List Nat} (hA : ValidActive m C S N)
    (x : Row) (k : Nat) (hcov : LeavesCovered ts data) {g : List Nat} (hg : g ∈ activeSet m C S) {j : Nat} (hj : j ∈ g) :
    activeCy ts m data C S N x j k = some (shapley (activeSet m C S) (activeGame ts m data N x k) g) :=
  activeCy_eq hts hC hm hA x k (hcov.cnt hts) hg hj

theorem leafGame_all {ts : List TreeArr} {m : Nat} (hts : ∀ t ∈ ts, WellFormed t m) {data : List Row}
    (hdata : data ≠ []) (hm : m < ulongMax) (x : Row) (k : Nat) (base : Nat → ℚ) (P : Row → ℚ)
    (hP : ∀ z, ensemblePredict ts none none base (full z) k = some (P z))
    (hleaf : ∀ t ∈ ts, ∀ ℓ, EndsIn t (full x) ℓ → ∃ z ∈ data, EndsIn t (full z) ℓ)
    {A : Finset (List Nat)} (hA : ∀ r z, AgreesOn r A z ↔ InBox m r z) :
    leafGame ts m data x k A - leafGame ts m data x k ∅ = P x - (data.map P).sum / data.length := by
  classical
  have hV : ValidGroups m [[]] := Or.inl rfl
  have h := C07_efficiency hts hdata hV hm x k base P hP hleaf (fun g => g.headD 0) (by
    intro g hg
    obtain ⟨h1, _, _⟩ := playerSet_lt hV hg
    obtain ⟨a, l, rfl⟩ := List.exists_cons_of_ne_nil h1
    simp)
  rw [Finset.sum_congr rfl fun g hg => shapCy_eq hts hV hm x k hg (by
    obtain ⟨h1, _, _⟩ := playerSet_lt hV hg
    obtain ⟨a, l, rfl⟩ := List.exists_cons_of_ne_nil h1
    simp), shapley_efficiency] at h
  rw [← h]
  congr 1
  unfold leafGame leafShare
  simp only [hA, agreesOn_all hV]

theorem agrees_active {m : Nat} {C : List (List Nat)} (hC : ValidGroups m C) {S N : List Nat} (hA : ValidActive m C S N)
    (r : Rect) (z : Row) : AgreesOn r (insert N (activeSet m C S)) z ↔ InBox m r z := by
  rw [agreesOn_insert, sat_iff]
  constructor
  · rintro ⟨h1, h2⟩ j hj
    rcases (hA.2.1 j).mpr hj with hjS | hjN
    · obtain ⟨g, hg, hjg⟩ := playerSet_cover (C := C) hj
      refine h1 g (mem_activeSet.mpr ⟨hg, ?_⟩) j hjg
      rcases mem_playerSet.mp hg with ⟨hc, _⟩ | ⟨i, _, _, rfl⟩
      · rcases hA.2.2.2 g hc with h | h
        · exact h
        · exact absurd hjS (h j hjg)
      · simp only [List.mem_singleton] at hjg ⊢; subst hjg; simpa using hjS
    · exact h2 j hjN
  · intro h
    exact ⟨fun g hg s hs => h s ((playerSet_lt hC (mem_activeSet.mp hg).1).2.2 s hs),
      fun s hs => h s ((hA.2.1 s).mp (Or.inr hs))⟩

/-- **C17.** Efficiency: with `P` the prediction of the ensemble, `S` (non-empty) and `N` splitting the columns, and
every leaf containing a background row, the Active Shapley values are numbers that sum over the active players to `P x`
minus the mean prediction. -/
theorem C17_active_efficiency {ts : List TreeArr} {m : Nat} (hts : ∀ t ∈ ts, WellFormed t m) {data : List Row}
    (hdata : data ≠ []) {C : List (List Nat)} (hC : ValidGroups m C) (hm : m < ulongMax) {S N : List Nat}
    (hA : ValidActive m C S N) (hS : S ≠ []) (x : Row) (k : Nat) (hcov : LeavesCovered ts data)
    (base : Nat → ℚ) (P : Row → ℚ) (hP : ∀ z, ensemblePredict ts none none base (full z) k = some (P z))
    (rep : List Nat → Nat) (hrep : ∀ g ∈ activeSet m C S, rep g ∈ g) :
    ∃ φ : List Nat → ℚ, (∀ g ∈ activeSet m C S, activeCy ts m data C S N x (rep g) k = some (φ g)) ∧
      ∑ g ∈ activeSet m C S, φ g = P x - (data.map P).sum / data.length := by
  refine ⟨fun g => shapley (activeSet m C S) (activeGame ts m data N x k) g, fun g hg =>
    C17_active_is_shapley_value hts hC hm hA x k hcov hg (hrep g hg), ?_⟩
  rw [shapley_efficiency]
  have hne : activeSet m C S ≠ ∅ := by
    obtain ⟨c, hc⟩ := List.exists_mem_of_ne_nil _ (activePlayers_ne_nil C hS)
    exact Finset.ne_empty_of_mem (((activePlayers_spec hC hA).2 c).mp hc)
  unfold activeGame
  rw [if_neg hne, if_pos rfl]
  refine leafGame_all hts hdata hm x k base P hP ?_ (agrees_active hC hA)
  intro t ht ℓ hℓ
  refine hcov t ht ℓ ?_
  obtain ⟨b, hb⟩ := hts t ht
  rw [endsIn_iff hb, descendObs_full] at hℓ
  rw [leafIdx_iff hb, hℓ]
  exact b.descend_mem x

theorem exActive : ValidActive 3 [[]] [2, 0] [1] := by
  refine ⟨by decide, fun i => ?_, by decide, by decide⟩
  simp; omega

example : ValidActive 3 [[]] [2, 0] [1] ∧ LeavesCovered [exTree] exData ∧
    activeSet 3 [[]] [2, 0] = {[0], [2]} ∧
    activeCy [exTree] 3 exData [[]] [2, 0] [1] (fun _ => 2) 0 0 = some (65 / 12) ∧
    activeCy [exTree] 3 exData [[]] [2, 0] [1] (fun _ => 2) 2 0 = some (-35 / 12) :=
  ⟨exActive, exCovered, by decide, by decide +kernel, by decide +kernel⟩

/-- The leaves must be covered: an empty leaf turns the values into NaN even where the ordinary Shapley values are
numbers. -/
theorem C17_empty_leaf_nan :
    activeCy [exTree] 3 [fun _ => 0] [[]] [2, 0] [1] (fun _ => 2) 0 0 = none ∧
      shapCy [exTree] 3 [fun _ => 0] [[]] (fun _ => 2) 0 0 = -10 := by
  constructor <;> decide +kernel

/-! ### C18 -/

/-- The active columns and null columns of a row as the user means them: `S` (different columns below `m`) and the
columns outside `S`. -/
def complement (m : Nat) (S : List Nat) : List Nat := (List.range m).filter fun i => decide (i ∉ S)

/-- `get_null_coalition` on a row that lists the active columns first and is filled with `-1`: the slice used by the
adaptive routine is the complement. -/
theorem nullRow_drop {m : Nat} {S : List Nat} (_hS : ∀ i ∈ S, i < m) (pad : Nat) :
    ((nullRow m (S.map Int.ofNat ++ List.replicate pad (-1)) S.length).drop S.length).map Int.toNat = complement m S := by
  unfold nullRow complement
  rw [List.drop_left' (by simp), List.filter_map, List.map_map]
  have e1 : (Int.toNat ∘ Int.ofNat) = id := by funext i; simp
  rw [e1, List.map_id]
  apply List.filter_congr
  intro i _
  simp only [Function.comp, List.mem_append, List.mem_map, List.mem_replicate]
  congr 1
  simp only [not_or, not_exists, not_and, eq_iff_iff]
  constructor
  · rintro ⟨h, _⟩ hi; exact h i hi rfl
  · intro h
    refine ⟨fun a ha he => h ?_, fun _ he => ?_⟩
    · have : a = i := by simpa using he
      exact this ▸ ha
    · simp at he

/-- the matrix row has the `m` entries numpy needs for the slice assignment (otherwise it raises) -/
theorem nullRow_length {m : Nat} {S : List Nat} (hnd : S.Nodup) (hS : ∀ i ∈ S, i < m) (pad : Nat) :
    (nullRow m (S.map Int.ofNat ++ List.replicate pad (-1)) S.length).length = m := by
  have h1 := nullRow_drop hS pad
  have h2 := congrArg List.length h1
  simp only [List.length_map, List.length_drop] at h2
  have h3 : (complement m S).length = m - S.length := by
    unfold complement
    have hc : ((List.range m).filter fun i => decide (i ∈ S)).length = S.length := by
      apply List.Perm.length_eq
      rw [List.perm_ext_iff_of_nodup (List.nodup_range.filter _) hnd]
      intro a
      simp only [List.mem_filter, List.mem_range, decide_eq_true_eq]
      exact ⟨fun h => h.2, fun h => ⟨hS a h, h⟩⟩
    have ht := List.length_eq_length_filter_add (l := List.range m) (fun i => decide (i ∈ S))
    simp only [List.length_range] at ht
    have : (fun i => decide (i ∉ S)) = fun i => !decide (i ∈ S) := by funext i; simp
    rw [this]
    omega
  have h4 : S.length ≤ (nullRow m (S.map Int.ofNat ++ List.replicate pad (-1)) S.length).length := by
    unfold nullRow; simp
  have h5 : S.length ≤ m := by
    have := (List.subperm_of_subset hnd (l₂ := List.range m) (fun i hi => List.mem_range.mpr (hS i hi))).length_le
    simpa using this
  omega

theorem activeGame_nil (ts : List TreeArr) (m : Nat) (data : List Row) (x : Row) (k : Nat) :
    activeGame ts m data [] x k = leafGame ts m data x k := by
  classical
  funext T
  unfold activeGame
  split
  · rename_i h; rw [h]
  · have : ∀ r z, AgreesOn r (insert [] T) z ↔ AgreesOn r T z := by
      intro r z; rw [agreesOn_insert]; simp [sat]
    unfold leafGame leafShare
    simp only [this]

/-- **C18.** Row `i` of the adaptive routine, run on the matrices produced by `get_null_coalition` from rows that list the
active columns `S i`, depends on sample `i` alone: at a column of an active player it is the Shapley value of the active
game of `x_i` with active columns `S i` and null columns the complement, also when `S i` is all columns; at a column
outside `S i` it is 0. -/
theorem C18_adaptive_rows {ts : List TreeArr} {m : Nat} (hts : ∀ t ∈ ts, WellFormed t m) {data : List Row}
    {C : List (List Nat)} (hC : ValidGroups m C) (hm : m < ulongMax) (hcov : LeavesCovered ts data) (X : List Row)
    (S : Nat → List Nat) {i : Nat} (hi : i < X.length) (hnd : (S i).Nodup) (hlt : ∀ c ∈ S i, c < m) (hne : S i ≠ [])
    (hstr : ∀ g ∈ C, (∀ s ∈ g, s ∈ S i) ∨ ∀ s ∈ g, s ∉ S i) (j k : Nat) :
    let sRow := fun i => S i ++ List.replicate (m - (S i).length) 0
    let nRow := fun i => (nullRow m ((S i).map Int.ofNat ++ List.replicate (m - (S i).length) (-1)) (S i).length).map
      Int.toNat
    let out := activeAdap ts m data C X sRow nRow (fun i => (S i).length) i j k
    (∀ g ∈ activeSet m C (S i), j ∈ g →
      out = some (some (shapley (activeSet m C (S i)) (activeGame ts m data (complement m (S i)) X[i] k) g))) ∧
    (j < m → j ∉ S i → out = some (some 0)) := by
  intro sRow nRow out
  have hA : ValidActive m C (S i) (complement m (S i)) := by
    refine ⟨hnd, fun c => ?_, fun c hc hn => ?_, hstr⟩
    · simp only [complement, List.mem_filter, List.mem_range, decide_eq_true_eq]
      constructor
      · rintro (h | h); exacts [hlt c h, h.1]
      · intro h; by_cases hc : c ∈ S i; exacts [Or.inl hc, Or.inr ⟨h, hc⟩]
    · simp only [complement, List.mem_filter, decide_eq_true_eq] at hn; exact hn.2 hc
  have h1 : (sRow i).take (S i).length = S i := List.take_left' rfl
  have h2 : (nRow i).drop (S i).length = complement m (S i) := by
    simp only [nRow]
    rw [← List.map_drop]
    exact nullRow_drop hlt _
  have hout : out = some (if (S i).length ≠ m then activeCy ts m data C (S i) (complement m (S i)) X[i] j k
      else some (shapCy ts m data C X[i] j k)) := by
    simp only [out, activeAdap, h1, h2, List.getElem?_eq_getElem hi]
    rfl
  rw [hout]
  constructor
  · intro g hg hj
    by_cases hs : (S i).length = m
    · have hall : ∀ c < m, c ∈ S i := by
        intro c hc
        by_contra hn
        have h3 := (List.subperm_of_subset (l₁ := c :: S i) (l₂ := List.range m) (List.nodup_cons.mpr ⟨hn, hnd⟩) (by
          intro a ha
          rcases List.mem_cons.mp ha with rfl | ha
          exacts [List.mem_range.mpr hc, List.mem_range.mpr (hlt a ha)])).length_le
        simp at h3; omega
      have hcomp : complement m (S i) = [] := by
        rw [complement, List.filter_eq_nil_iff]
        intro a ha; simpa using hall a (List.mem_range.mp ha)
      have hset : activeSet m C (S i) = playerSet m C := by
        ext c; rw [mem_activeSet]
        exact ⟨fun h => h.1, fun h => ⟨h, fun s hs => hall s ((playerSet_lt hC h).2.2 s hs)⟩⟩
      rw [hset] at hg
      rw [if_neg (not_not.mpr hs), hcomp, activeGame_nil, hset, shapCy_eq hts hC hm X[i] k hg hj]
    · rw [if_pos hs, C17_active_is_shapley_value hts hC hm hA X[i] k hcov hg hj]
  · intro hjm hj
    have hs : (S i).length ≠ m := by
      intro hs
      have h3 := (List.subperm_of_subset (l₁ := j :: S i) (l₂ := List.range m) (List.nodup_cons.mpr ⟨hj, hnd⟩) (by
        intro a ha
        rcases List.mem_cons.mp ha with rfl | ha
        exacts [List.mem_range.mpr hjm, List.mem_range.mpr (hlt a ha)])).length_le
      simp at h3; omega
    rw [if_pos hs, C16_null_variables_zero ts m data C (S i) _ hne hstr X[i] k hj]

/-- two samples with different coalitions, one of them complete -/
example :
    activeAdap [exTree] 3 exData [[]] [fun _ => 2, fun _ => 0] (fun i => [[2, 0, 0], [0, 1, 2]].getD i [])
      (fun i => [[0, 0, 1], [0, 0, 0]].getD i []) (fun i => [2, 3].getD i 0) 0 0 0 = some (some (65 / 12)) ∧
    activeAdap [exTree] 3 exData [[]] [fun _ => 2, fun _ => 0] (fun i => [[2, 0, 0], [0, 1, 2]].getD i [])
      (fun i => [[0, 0, 1], [0, 0, 0]].getD i []) (fun i => [2, 3].getD i 0) 1 0 0 = some (some (-55 / 12)) := by
  constructor <;> decide +kernel

/-- The documentation of `shap_values_acv_adap` asks for the null columns *first* in each row of `N_star`. A matrix that
follows it (here the null column 1 first, filler after it) makes the routine read filler as null columns, and the values
differ from those of the documented coalition. -/
theorem C18_documented_layout_differs :
    activeAdap [exTree] 3 exData [[]] [fun _ => 2] (fun _ => [2, 0, 0]) (fun _ => [1, 0, 0]) (fun _ => 2) 0 0 0
      ≠ some (activeCy [exTree] 3 exData [[]] [2, 0] [1] (fun _ => 2) 0 0) := by decide +kernel

end Acv
