import Verif.Lemmas.ExpNormalized

/-!
# C72-C75: normalised conditional expectations and their Shapley values
-/

namespace Acv

/-- rows covering the leaves of `exTree`, off its thresholds -/
def exData3 : List Row := [fun _ => 0, fun _ => 2, fun j => if j = 0 then 2 else 5, fun _ => 0]

theorem exData3_off : ∀ t ∈ [exTree], ∀ z ∈ exData3, OffSplits t z := by
  intro t ht
  rw [List.mem_singleton.mp ht]
  unfold OffSplits
  decide +kernel

theorem exData3_covered : LeavesCovered [exTree] exData3 := by
  intro t ht ℓ hℓ
  rw [List.mem_singleton.mp ht] at hℓ ⊢
  have hl : exTree.leafIdx = [1, 3, 4] := by decide +kernel
  rw [hl] at hℓ
  have key : ∀ z : Row, exBTree.descend z = ℓ → EndsIn exTree (full z) ℓ := by
    intro z hz; rw [endsIn_iff exTree_isTree, descendObs_full, hz]
  simp only [List.mem_cons, List.not_mem_nil, or_false] at hℓ
  rcases hℓ with rfl | rfl | rfl
  · exact ⟨fun _ => 0, by simp [exData3], key _ (by decide +kernel)⟩
  · exact ⟨fun _ => 2, by simp [exData3], key _ (by decide +kernel)⟩
  · exact ⟨fun j => if j = 0 then 2 else 5, by simp [exData3], key _ (by decide +kernel)⟩

theorem exTwo_off : ∀ t ∈ [exTree], OffSplits t fun _ => 2 := by
  intro t ht
  rw [List.mem_singleton.mp ht]
  unfold OffSplits
  decide +kernel

theorem covered_cnt {ts : List TreeArr} {m : Nat} (hts : ∀ t ∈ ts, WellFormed t m) {data : List Row} (hcov : LeavesCovered ts data)
    {S : List Nat} (hS : ∀ s ∈ S, s < m) : ∀ t ∈ ts, ∀ ℓ ∈ t.leafIdx, 0 < cnt data (t.leafRect ℓ) S := by
  intro t ht ℓ hℓ
  have h1 := hcov.cnt hts t ht ℓ hℓ
  have h2 := cnt_mono (data := data) (r := t.leafRect ℓ) (S := S) (T := List.range m) (fun s hs => List.mem_range.mpr (hS s hs))
  omega

/-! ## C72 -/

/-- **C72.** When every leaf contains a background row, `compute_exp_normalized` returns a number, and there are non-negative weights of
the leaves, of sum 1 in each tree and the same for all outputs, such that the result is the sum over the trees of the weighted mean of the
leaf values. If no entry of the observation is a threshold, only leaves that some point equal to the observation on `S` can reach have a
non-zero weight. -/
theorem C72_convex_combination {ts : List TreeArr} {m : Nat} (hts : ∀ t ∈ ts, WellFormed t m) {data : List Row}
    (hcov : LeavesCovered ts data) {S : List Nat} (hS : ∀ s ∈ S, s < m) (x : Row) :
    ∃ w : TreeArr → Nat → ℚ,
      (∀ t ∈ ts, (∀ ℓ ∈ t.leafIdx, 0 ≤ w t ℓ) ∧ (t.leafIdx.map (w t)).sum = 1 ∧
        (OffSplits t x → ∀ ℓ ∈ t.leafIdx, w t ℓ ≠ 0 → ∃ y : Row, (∀ s ∈ S, y s = x s) ∧ EndsIn t (full y) ℓ)) ∧
      ∀ k, expNormCy ts m data S x k = some (ts.map fun t => (t.leafIdx.map fun ℓ => t.value ℓ k * w t ℓ).sum).sum := by
  let a : TreeArr → Nat → ℚ := fun t ℓ =>
    if satCC (t.leafRect ℓ) S x then (cntCC data (t.leafRect ℓ) (List.range m) : ℚ) / cnt data (t.leafRect ℓ) S else 0
  have ha : ∀ t ℓ, 0 ≤ a t ℓ := by
    intro t ℓ
    simp only [a]
    split
    · exact div_nonneg (Nat.cast_nonneg _) (Nat.cast_nonneg _)
    · exact le_refl _
  have hcnt := covered_cnt hts hcov hS
  refine ⟨fun t ℓ => a t ℓ / (t.leafIdx.map (a t)).sum, ?_, ?_⟩
  · intro t ht
    have hnn : 0 ≤ (t.leafIdx.map (a t)).sum := by
      apply List.sum_nonneg
      intro q hq
      obtain ⟨ℓ, _, rfl⟩ := List.mem_map.mp hq
      exact ha t ℓ
    refine ⟨fun ℓ _ => div_nonneg (ha t ℓ) hnn, ?_, ?_⟩
    · have hm := leafAt_mem (hts t ht) x
      have hfit : satCC (t.leafRect (leafAt t x)) S x = true := by
        apply satCC_of_sat
        rw [sat_iff]
        intro s hs
        exact ((inBox_leaf_iff (hts t ht) x hm).mpr rfl) s (hS s hs)
      have hpos : 0 < a t (leafAt t x) := by
        simp only [a, hfit, if_true]
        have h1 := hcov.cnt hts t ht _ hm
        have h2 := cntCC_ge (data := data) (r := t.leafRect (leafAt t x)) (S := List.range m)
        have h3 := hcnt t ht _ hm
        have h4 : 0 < cntCC data (t.leafRect (leafAt t x)) (List.range m) := by omega
        exact div_pos (Nat.cast_pos.mpr h4) (Nat.cast_pos.mpr h3)
      have hlt : 0 < (t.leafIdx.map (a t)).sum :=
        lt_of_lt_of_le hpos (List.single_le_sum (by
          intro q hq
          obtain ⟨ℓ, _, rfl⟩ := List.mem_map.mp hq
          exact ha t ℓ) _ (List.mem_map_of_mem hm))
      simp only [div_eq_mul_inv]
      rw [List.sum_map_mul_right]
      exact mul_inv_cancel₀ hlt.ne'
    · intro hx ℓ hℓ hw
      have hs : sat (t.leafRect ℓ) S x = true := by
        by_contra hs
        apply hw
        simp only [a, satCC_eq (offSplits_lo (hts t ht) hx hℓ), hs]
        simp
      rw [sat_iff] at hs
      obtain ⟨z, hz, hze⟩ := hcov t ht ℓ hℓ
      have hzl : leafAt t z = ℓ := by
        obtain ⟨b, hb⟩ := hts t ht
        rw [endsIn_iff hb, descendObs_full] at hze
        rw [leafAt_eq hb z, ← hze]
      have hzb := (inBox_leaf_iff (hts t ht) z hℓ).mpr hzl
      refine ⟨fun s => if s ∈ S then x s else z s, fun s hs => if_pos hs, ?_⟩
      have hy : InBox m (t.leafRect ℓ) fun s => if s ∈ S then x s else z s := by
        intro s hsm
        by_cases h : s ∈ S
        · simp only [h, if_true]; exact hs s h
        · simp only [h, if_false]; exact hzb s hsm
      have := (inBox_leaf_iff (hts t ht) _ hℓ).mp hy
      rw [← this]
      exact leafAt_endsIn (hts t ht) _
  · intro k
    unfold expNormCy
    apply osum_congr
    intro t ht
    exact expNormTree_pos k (fun ℓ hℓ _ => (hcnt t ht ℓ hℓ).ne')

example : (∀ t ∈ [exTree], WellFormed t 3) ∧ LeavesCovered [exTree] exData3 ∧ (∀ s ∈ [1], s < 3) ∧ OffSplits exTree (fun _ => 2) ∧
    expNormCy [exTree] 3 exData3 [1] (fun _ => 2) 0 = some 14 := by
  exact ⟨by simp [exTree_wf3], exData3_covered, by simp, exTwo_off _ (by simp), by decide +kernel⟩

/-- The values the weights of C72 stand for: off the thresholds, for every set of columns, the result is the game in which each tree
contributes the mean of its leaf values weighted by the normalised shares. -/
theorem C72_is_normalised_game {ts : List TreeArr} {m : Nat} (hts : ∀ t ∈ ts, WellFormed t m) {data : List Row}
    (hcov : LeavesCovered ts data) {S : List Nat} (hS : ∀ s ∈ S, s < m) {x : Row} (k : Nat)
    (hx : ∀ t ∈ ts, OffSplits t x) (hd : ∀ t ∈ ts, ∀ z ∈ data, OffSplits t z) :
    expNormCy ts m data S x k = some (normGame ts m data x k (S.map ([·])).toFinset) :=
  expNormCy_eq hts S k hx hd fun t ht ℓ hℓ _ => (covered_cnt hts hcov hS t ht ℓ hℓ).ne'

/-- The claim of C72 on the two extreme sets, for ensembles without base offset: with all columns the prediction, with none the mean
prediction. -/
def C72_claim : Prop :=
  ∀ (ts : List TreeArr) (m : Nat), (∀ t ∈ ts, WellFormed t m) → ∀ (data : List Row), data ≠ [] → LeavesCovered ts data →
  ∀ (x : Row) (k : Nat) (P : Row → ℚ), (∀ z, ensemblePredict ts none none (fun _ => 0) (full z) k = some (P z)) →
  expNormCy ts m data (List.range m) x k = some (P x) ∧ expNormCy ts m data [] x k = some ((data.map P).sum / data.length)

/-- **False of the code**: an observation or a background row on a threshold is counted in the leaves on both sides. -/
theorem C72_extremes_false : ¬ C72_claim := by
  intro h
  have := (h [exTree] 3 (by simp [exTree_wf3]) exData3 (by simp [exData3]) exData3_covered (fun _ => 1) 0 _ exTree_predict0).1
  have h2 : expNormCy [exTree] 3 exData3 (List.range 3) (fun _ => 1) 0 = some 15 := by decide +kernel
  rw [h2] at this
  norm_num at this

theorem normGame_full_eq {ts : List TreeArr} {m : Nat} (hts : ∀ t ∈ ts, WellFormed t m) {data : List Row} {C : List (List Nat)}
    (hC : ValidGroups m C) (x : Row) (k : Nat) (hleaf : ∀ t ∈ ts, 0 < cnt data (t.leafRect (leafAt t x)) (List.range m)) :
    normGame ts m data x k (playerSet m C) = (ts.map fun t => t.value (leafAt t x) k).sum := by
  classical
  unfold normGame
  congr 1
  apply List.map_congr_left
  intro t ht
  rw [← sum_leaf_indicator (hts t ht) x (fun ℓ => t.value ℓ k)]
  have hsh : ∀ ℓ ∈ t.leafIdx, leafShare m data (t.leafRect ℓ) x (playerSet m C) = if InBox m (t.leafRect ℓ) x then 1 else 0 := by
    intro ℓ hℓ
    unfold leafShare
    simp only [agreesOn_all hC]
    split
    · rename_i hin
      have := (inBox_leaf_iff (hts t ht) x hℓ).mp hin
      have h1 := hleaf t ht
      rw [this] at h1
      rw [← cnt_range, div_self (by positivity)]
    · rfl
  have hone : (t.leafIdx.map fun ℓ' => leafShare m data (t.leafRect ℓ') x (playerSet m C)).sum = 1 := by
    rw [List.map_congr_left hsh, sum_leaf_indicator (hts t ht) x (fun _ => 1)]
  congr 1
  apply List.map_congr_left
  intro ℓ hℓ
  unfold normShare
  rw [hone, div_one, hsh ℓ hℓ]
  split <;> simp

theorem mean_offset {ts : List TreeArr} {m : Nat} (hts : ∀ t ∈ ts, WellFormed t m) {data : List Row} (hdata : data ≠ []) (x : Row) (k : Nat)
    {base : Nat → ℚ} {P : Row → ℚ} (hP : ∀ z, ensemblePredict ts none none base (full z) k = some (P z)) :
    leafGame ts m data x k ∅ = (data.map P).sum / data.length - base k := by
  rw [leafGame_empty hts hdata x k]
  have hN : (data.length : ℚ) ≠ 0 := by
    have := List.length_pos_of_ne_nil hdata; positivity
  have : ∀ l : List Row, (l.map fun z => (ts.map fun t => t.value (leafAt t z) k).sum).sum = (l.map P).sum - l.length * base k := by
    intro l
    induction l with
    | nil => simp
    | cons z l ih => simp only [List.map_cons, List.sum_cons, ih, predict_leafAt hts (hP z), List.length_cons]; push_cast; ring
  rw [this]
  field_simp

/-- **C72, partial**: when neither the observation nor a background row lies on a threshold, `compute_exp_normalized` returns with all
columns the prediction, and with none the mean prediction over the background rows, both minus the base offset. Missing (false): entries
equal to a threshold. -/
theorem C72_extremes_partial {ts : List TreeArr} {m : Nat} (hts : ∀ t ∈ ts, WellFormed t m) {data : List Row} (hdata : data ≠ [])
    (hcov : LeavesCovered ts data) {x : Row} (k : Nat) {base : Nat → ℚ} {P : Row → ℚ}
    (hP : ∀ z, ensemblePredict ts none none base (full z) k = some (P z))
    (hx : ∀ t ∈ ts, OffSplits t x) (hd : ∀ t ∈ ts, ∀ z ∈ data, OffSplits t z) :
    (∀ S : List Nat, (∀ s, s ∈ S ↔ s < m) → expNormCy ts m data S x k = some (P x - base k)) ∧
      expNormCy ts m data [] x k = some ((data.map P).sum / data.length - base k) := by
  constructor
  · intro S hS
    have hset : (S.map ([·])).toFinset = playerSet m [[]] := by
      ext c; simp [playerSet, hS]
    rw [C72_is_normalised_game hts hcov (fun s hs => (hS s).mp hs) k hx hd, hset,
      normGame_full_eq hts (Or.inl rfl) x k (fun t ht => hcov.cnt hts t ht _ (leafAt_mem (hts t ht) x)), predict_leafAt hts (hP x)]
  · rw [C72_is_normalised_game hts hcov (by simp) k hx hd]
    simp only [List.map_nil, List.toFinset_nil]
    rw [normGame_empty hts hdata, mean_offset hts hdata x k hP]

example : exData3 ≠ [] ∧ LeavesCovered [exTree] exData3 ∧ (∀ t ∈ [exTree], OffSplits t fun _ => 2) ∧
    (∀ t ∈ [exTree], ∀ z ∈ exData3, OffSplits t z) ∧ expNormCy [exTree] 3 exData3 [2, 0, 1] (fun _ => 2) 0 = some 20 ∧
    expNormCy [exTree] 3 exData3 [] (fun _ => 2) 0 = some (35 / 2) :=
  ⟨by simp [exData3], exData3_covered, exTwo_off, exData3_off, by decide +kernel, by decide +kernel⟩

/-- The hypothesis of C72 that every leaf holds a background row is needed: otherwise the result can be NaN, although the leaves of all
background rows are known and the data is not empty. -/
theorem C72_empty_leaf_nan : expNormCy [exTree] 3 [fun _ => 0] [0] (fun _ => 2) 0 = none := by decide +kernel

/-! ## C73 -/

/-- **C73.** When every leaf contains a background row, `shap_values_normalized` returns the Shapley values of the game in which the share
of each leaf is normalised at the players that touch this leaf, for every valid coalition argument. -/
theorem C73_is_shapley_value {ts : List TreeArr} {m : Nat} (hts : ∀ t ∈ ts, WellFormed t m) {data : List Row} (hdata : data ≠ [])
    (hcov : LeavesCovered ts data) {C : List (List Nat)} (hC : ValidGroups m C) (hm : m < ulongMax) (x : Row) (k : Nat)
    {g : List Nat} (hg : g ∈ playerSet m C) {j : Nat} (hj : j ∈ g) :
    shapNorm ts m data C x j k = shapley (playerSet m C) (leafwiseNormGame ts m data x k) g :=
  shapNorm_eq hts hdata (hcov.cnt hts) hC hm x k hg hj

/-- The claim of C73, efficiency: the values of the players sum to prediction minus mean prediction as soon as the leaf of `x` holds a
background row in every tree (as for `shap_values`, C07). -/
def C73_claim : Prop :=
  ∀ (ts : List TreeArr) (m : Nat), (∀ t ∈ ts, WellFormed t m) → ∀ (data : List Row), data ≠ [] →
  ∀ (x : Row) (k : Nat) (base : Nat → ℚ) (P : Row → ℚ), (∀ z, ensemblePredict ts none none base (full z) k = some (P z)) →
  (∀ t ∈ ts, ∀ ℓ, EndsIn t (full x) ℓ → ∃ z ∈ data, EndsIn t (full z) ℓ) →
  ((List.range m).map fun j => shapNorm ts m data [[]] x j k).sum = P x - (data.map P).sum / data.length

/-- **False of the code**: a later leaf without background row sets the accumulated normaliser back to 0. Here the values sum to -15
instead of 5. -/
theorem C73_efficiency_false : ¬ C73_claim := by
  intro h
  have := h [exTree] 3 (by simp [exTree_wf3]) [fun _ => 0, fun _ => 2] (by simp) (fun _ => 2) 0 (fun _ => 1) _ exTree_predict
    (by intro t ht ℓ hℓ; exact ⟨fun _ => 2, by simp, hℓ⟩)
  have h2 : ((List.range 3).map fun j => shapNorm [exTree] 3 [fun _ => 0, fun _ => 2] [[]] (fun _ => 2) j 0).sum = -15 := by
    decide +kernel
  rw [h2] at this
  norm_num at this

/-- **C73, partial**: efficiency holds for every valid coalition argument when every leaf contains a background row. Missing (false):
leaves without background row. -/
theorem C73_efficiency_partial {ts : List TreeArr} {m : Nat} (hts : ∀ t ∈ ts, WellFormed t m) {data : List Row} (hdata : data ≠ [])
    (hcov : LeavesCovered ts data) {C : List (List Nat)} (hC : ValidGroups m C) (hm : m < ulongMax) (x : Row) (k : Nat)
    (base : Nat → ℚ) (P : Row → ℚ) (hP : ∀ z, ensemblePredict ts none none base (full z) k = some (P z))
    (rep : List Nat → Nat) (hrep : ∀ g ∈ playerSet m C, rep g ∈ g) :
    ∑ g ∈ playerSet m C, shapNorm ts m data C x (rep g) k = P x - (data.map P).sum / data.length := by
  rw [Finset.sum_congr rfl fun g hg => C73_is_shapley_value hts hdata hcov hC hm x k hg (hrep g hg), shapley_efficiency,
    leafwise_full hts (hcov.cnt hts) hC, leafwise_empty hts hdata, predict_leafAt hts (hP x), mean_offset hts hdata x k hP]
  ring

example : (∀ t ∈ [exTree], WellFormed t 3) ∧ exData3 ≠ [] ∧ LeavesCovered [exTree] exData3 ∧ ValidGroups 3 [[2, 1]] ∧ 3 < ulongMax ∧
    [2, 1] ∈ playerSet 3 [[2, 1]] ∧ shapNorm [exTree] 3 exData3 [[2, 1]] (fun _ => 2) 1 0 = -19 / 4 ∧
    shapNorm [exTree] 3 exData3 [[2, 1]] (fun _ => 2) 0 0 = 29 / 4 :=
  ⟨by simp [exTree_wf3], by simp [exData3], exData3_covered, exGroups_valid, by decide, by decide, by decide +kernel, by decide +kernel⟩

/-- A player none of whose columns is tested by the ensemble gets 0, whatever the data. -/
theorem C73_unused_variable_zero {ts : List TreeArr} {m : Nat} (hts : ∀ t ∈ ts, WellFormed t m) (data : List Row)
    {C : List (List Nat)} (hC : ValidGroups m C) (x : Row) (k : Nat) {g : List Nat} (hg : g ∈ playerSet m C)
    {j : Nat} (hj : j ∈ g)
    (hunused : ∀ t ∈ ts, ∀ n < t.size, 0 ≤ t.left n → ∀ s ∈ g, t.feature n ≠ (s : Int)) :
    shapNorm ts m data C x j k = 0 := by
  unfold shapNorm
  have : ∀ t ∈ ts, (t.leafIdx.map fun ℓ => normLeafPhi m data C (t.leafIdx.map t.leafRect) (t.leafRect ℓ) (t.leafCols ℓ) x j
      * t.value ℓ k).sum = 0 := by
    intro t ht
    apply List.sum_eq_zero
    intro a ha
    obtain ⟨ℓ, hℓ, rfl⟩ := List.mem_map.mp ha
    obtain ⟨hnd, hlt, _⟩ := leafCols_spec (hts t ht) hℓ
    obtain ⟨_, hpm⟩ := playersCy_spec hC
    obtain ⟨_, hlm⟩ := leafPlayers_spec hC hnd hlt
    have hno : ∀ s ∈ g, s ∉ t.leafCols ℓ := by
      intro s hs hmem
      obtain ⟨f, hf, rfl⟩ := List.mem_map.mp hmem
      obtain ⟨n, p, hn, ha, hfp⟩ := ((C02_leaf_variables_complete (hts t ht) hℓ).1 f).mp hf
      obtain ⟨hp, hl, hnn⟩ := above_internal (hts t ht) hn ha
      refine hunused t ht p hp hl _ hs ?_
      omega
    have h0 : normLeafPhi m data C (t.leafIdx.map t.leafRect) (t.leafRect ℓ) (t.leafCols ℓ) x j = 0 := by
      unfold normLeafPhi
      simp only
      apply List.sum_eq_zero
      intro a ha
      obtain ⟨va, hva, rfl⟩ := List.mem_map.mp ha
      split
      · rename_i hin
        by_cases hjva : j ∈ va
        · have : va = g := playerSet_disjoint hC ((hpm va).mp hva) hg hjva hj
          subst this
          obtain ⟨i, hi, hiv⟩ := ((hlm va).mp hin).2
          exact absurd hi (hno i hiv)
        · have : va.count j = 0 := List.count_eq_zero_of_not_mem hjva
          simp [this]
      · rfl
    rw [h0, zero_mul]
  rw [List.map_congr_left (g := fun _ => (0 : ℚ)) this]
  simp

/-! ## C75 -/

/-- **C75.** For every value function of a list of columns that does not depend on order and repetitions and is a number on all unions of
players, the enumeration returns, for every valid coalition argument without group of a single column, the Shapley values of that function. -/
theorem C75_enumeration_is_shapley_value {m : Nat} {C : List (List Nat)} (hC : ValidGroups m C) (hns : C = [[]] ∨ ∀ g ∈ C, 1 < g.length)
    {v : List Nat → Option ℚ} {V : Finset (List Nat) → ℚ}
    (hv : ∀ L : List (List Nat), (∀ c ∈ L, c ∈ playerSet m C) → v L.flatten = some (V L.toFinset))
    {g : List Nat} (hg : g ∈ playerSet m C) {j : Nat} (hj : j ∈ g) :
    shapEnum v m C j = .ok (some (shapley (playerSet m C) V g)) :=
  shapEnum_eq hC hns hv hg hj

theorem normGame_flatten (ts : List TreeArr) (m : Nat) (data : List Row) (x : Row) (k : Nat) (L : List (List Nat)) :
    normGame ts m data x k (L.flatten.map ([·])).toFinset = normGame ts m data x k L.toFinset := by
  have hsame : ∀ r, leafShare m data r x (L.flatten.map ([·])).toFinset = leafShare m data r x L.toFinset := by
    intro r
    rw [leafShare_single, ← share_eq]
    split <;> simp
  unfold normGame normShare
  simp only [hsame]

/-- **C75, `py_shap_values_notoptimized`, partial**: with every leaf covered and no entry on a threshold the function returns numbers, which
are the Shapley values of `compute_exp_normalized` and sum to prediction minus mean prediction. Missing: thresholds (C72). -/
theorem C75_notoptimized_partial {ts : List TreeArr} {m : Nat} (hts : ∀ t ∈ ts, WellFormed t m) {data : List Row} (hdata : data ≠ [])
    (hcov : LeavesCovered ts data) {C : List (List Nat)} (hC : ValidGroups m C) (hns : C = [[]] ∨ ∀ g ∈ C, 1 < g.length) {x : Row} (k : Nat)
    {base : Nat → ℚ} {P : Row → ℚ} (hP : ∀ z, ensemblePredict ts none none base (full z) k = some (P z))
    (hx : ∀ t ∈ ts, OffSplits t x) (hd : ∀ t ∈ ts, ∀ z ∈ data, OffSplits t z) :
    ∃ φ : List Nat → ℚ, (∀ g ∈ playerSet m C, ∀ j ∈ g, shapNotOptimized ts m data C x j k = .ok (some (φ g))) ∧
      (∀ g ∈ playerSet m C, φ g = shapley (playerSet m C) (normGame ts m data x k) g) ∧
      ∑ g ∈ playerSet m C, φ g = P x - (data.map P).sum / data.length := by
  refine ⟨shapley (playerSet m C) (normGame ts m data x k), ?_, fun _ _ => rfl, ?_⟩
  · intro g hg j hj
    refine shapEnum_eq hC hns ?_ hg hj
    intro L hL
    beta_reduce
    rw [C72_is_normalised_game hts hcov _ k hx hd, normGame_flatten]
    intro s hs
    obtain ⟨c, hc, hsc⟩ := List.mem_flatten.mp hs
    exact (playerSet_lt hC (hL c hc)).2.2 s hsc
  · rw [shapley_efficiency, normGame_full_eq hts hC x k (fun t ht => hcov.cnt hts t ht _ (leafAt_mem (hts t ht) x)),
      normGame_empty hts hdata, predict_leafAt hts (hP x), mean_offset hts hdata x k hP]
    ring

example : (shapNotOptimized [exTree] 3 exData3 [[2, 1]] (fun _ => 2) 1 0).toOption = some (some (-17 / 4)) ∧
    (shapNotOptimized [exTree] 3 exData3 [[2, 1]] (fun _ => 2) 0 0).toOption = some (some (27 / 4)) := by
  constructor <;> decide +kernel

/-- The two functions documented as the same values are different, even with covered leaves and no entry on a threshold:
`shap_values_normalized` does not return the Shapley values of `compute_exp_normalized`. -/
theorem C73_not_values_of_exp_normalized :
    LeavesCovered [exTree] exData3 ∧ (∀ t ∈ [exTree], OffSplits t fun _ => 2) ∧ (∀ t ∈ [exTree], ∀ z ∈ exData3, OffSplits t z) ∧
      shapNorm [exTree] 3 exData3 [[]] (fun _ => 2) 0 0 ≠ shapley (playerSet 3 [[]]) (normGame [exTree] 3 exData3 (fun _ => 2) 0) [0] := by
  refine ⟨exData3_covered, exTwo_off, exData3_off, ?_⟩
  obtain ⟨φ, h1, h2, _⟩ := C75_notoptimized_partial (ts := [exTree]) (m := 3) (by simp [exTree_wf3]) (data := exData3) (by simp [exData3])
    exData3_covered (C := [[]]) (Or.inl rfl) (Or.inl rfl) (x := fun _ => 2) 0 exTree_predict0 exTwo_off exData3_off
  rw [← h2 [0] (by decide)]
  have h3 := h1 [0] (by decide) 0 (by simp)
  have h4 : (shapNotOptimized [exTree] 3 exData3 [[]] (fun _ => 2) 0 0).toOption = some (some (27 / 4)) := by decide +kernel
  rw [h3] at h4
  have h5 : φ [0] = 27 / 4 := by simpa [Except.toOption] using h4
  rw [h5]
  decide +kernel

open Classical in
/-- The mean of `P` over the background rows that agree with `x` on the columns of all players of `S`, minus `b`; 0 without such rows. -/
noncomputable def condMeanGame (data : List Row) (P : Row → ℚ) (b : ℚ) (x : Row) (S : Finset (List Nat)) : ℚ :=
  let rows := data.filter fun z => ∀ g ∈ S, ∀ s ∈ g, z s = x s
  if rows = [] then 0 else (rows.map P).sum / rows.length - b

/-- **C75, `py_shap_values_discrete_notoptimized`.** For every ensemble, every background dataset and every observation the function returns
the Shapley values of the conditional mean of the prediction given equality; if a background row equals the observation they sum to
prediction minus mean prediction. -/
theorem C75_discrete {ts : List TreeArr} {m : Nat} (hts : ∀ t ∈ ts, WellFormed t m) (data : List Row)
    {C : List (List Nat)} (hC : ValidGroups m C) (hns : C = [[]] ∨ ∀ g ∈ C, 1 < g.length) (x : Row) (k : Nat)
    {base : Nat → ℚ} {P : Row → ℚ} (hP : ∀ z, ensemblePredict ts none none base (full z) k = some (P z)) :
    (∀ g ∈ playerSet m C, ∀ j ∈ g,
      shapDiscrete ts m data C x j k = .ok (some (shapley (playerSet m C) (condMeanGame data P (base k) x) g))) ∧
    ((∃ z ∈ data, ∀ s < m, z s = x s) →
      ∑ g ∈ playerSet m C, shapley (playerSet m C) (condMeanGame data P (base k) x) g = P x - (data.map P).sum / data.length) := by
  classical
  constructor
  · intro g hg j hj
    refine shapEnum_eq hC hns ?_ hg hj
    intro L hL
    beta_reduce
    have hlt : ∀ s ∈ L.flatten, s < m := by
      intro s hs
      obtain ⟨c, hc, hsc⟩ := List.mem_flatten.mp hs
      exact (playerSet_lt hC (hL c hc)).2.2 s hsc
    obtain ⟨h1, h2⟩ := C20_cat_is_conditional_mean hts data hlt x k base P hP
    have hrows : (data.filter fun z => decide (∀ g ∈ L.toFinset, ∀ s ∈ g, z s = x s)) = matching L.flatten x data := by
      unfold matching
      apply List.filter_congr
      intro z _
      rw [decide_eq_decide]
      simp only [List.mem_toFinset, List.mem_flatten, forall_exists_index, and_imp]
      exact ⟨fun h s g hg hs => h g hg s hs, fun h g hg s hs => h s g hg hs⟩
    unfold condMeanGame
    simp only
    have hrows' : ∀ inst : DecidablePred fun z : Row => ∀ g ∈ L.toFinset, ∀ s ∈ g, z s = x s,
        (data.filter fun z => @decide _ (inst z)) = matching L.flatten x data := by
      intro inst; rw [← hrows]; congr 1; funext z; exact decide_eq_decide.mpr Iff.rfl
    simp only [hrows']
    by_cases he : matching L.flatten x data = []
    · rw [if_pos he, h2 he]
    · rw [if_neg he, h1 he]; rfl
  · rintro ⟨z0, hz0, hzx⟩
    rw [shapley_efficiency]
    have hfull : ∀ z : Row, (∀ g ∈ playerSet m C, ∀ s ∈ g, z s = x s) ↔ ∀ s < m, z s = x s := by
      intro z
      constructor
      · intro h s hs
        obtain ⟨g, hg, hsg⟩ := playerSet_cover (C := C) hs
        exact h g hg s hsg
      · intro h g hg s hs
        exact h s ((playerSet_lt hC hg).2.2 s hs)
    have hleaf : ∀ z : Row, (∀ s < m, z s = x s) → P z = P x := by
      intro z hz
      have e : ∀ t ∈ ts, leafAt t z = leafAt t x := by
        intro t ht
        have hb := (inBox_leaf_iff (hts t ht) x (leafAt_mem (hts t ht) x)).mpr rfl
        apply (inBox_leaf_iff (hts t ht) z (leafAt_mem (hts t ht) x)).mp
        intro s hs
        rw [hz s hs]; exact hb s hs
      have h1 := predict_leafAt hts (hP z)
      have h2 := predict_leafAt hts (hP x)
      rw [List.map_congr_left (fun t ht => by rw [e t ht]), h2] at h1
      linarith
    unfold condMeanGame
    simp only [hfull, Finset.notMem_empty, false_imp_iff, implies_true, decide_true, List.filter_true]
    have hne : (data.filter fun z => decide (∀ s < m, z s = x s)) ≠ [] :=
      List.ne_nil_of_mem (List.mem_filter.mpr ⟨hz0, by simpa using hzx⟩)
    have hdne : data ≠ [] := List.ne_nil_of_mem hz0
    rw [if_neg hne, if_neg hdne]
    have hall : ∀ l : List Row, (∀ z ∈ l, P z = P x) → l ≠ [] → (l.map P).sum / l.length = P x := by
      intro l hl hne
      have : (l.map P).sum = l.length * P x := by
        rw [List.map_congr_left hl]; simp
      have hpos := List.length_pos_of_ne_nil hne
      rw [this]; field_simp
    rw [hall _ (by
      intro z hz
      rw [List.mem_filter] at hz
      exact hleaf z (by simpa using hz.2)) hne]
    ring

example : (shapDiscrete [exTree] 3 exData3 [[2, 1]] (fun _ => 2) 1 0).toOption = some (some (-5 / 4)) ∧
    (shapDiscrete [exTree] 3 exData3 [[2, 1]] (fun _ => 2) 0 0).toOption = some (some (15 / 4)) ∧
    (∃ z ∈ exData3, ∀ s < 3, z s = (fun _ => 2 : Row) s) := by
  refine ⟨by decide +kernel, by decide +kernel, fun _ => 2, by simp [exData3], fun _ _ => rfl⟩

/-- Without an equal background row the values do not sum to prediction minus mean prediction: with `x = (3,3,3)`, prediction 20, mean 35/2,
each of the two players gets -35/4. -/
theorem C75_discrete_needs_equal_row :
    ensemblePredict [exTree] none none (fun _ => 0) (full fun _ => 3) 0 = some 20 ∧
      (shapDiscrete [exTree] 3 exData3 [[2, 1]] (fun _ => 3) 1 0).toOption = some (some (-35 / 4)) ∧
      (shapDiscrete [exTree] 3 exData3 [[2, 1]] (fun _ => 3) 0 0).toOption = some (some (-35 / 4)) := by
  refine ⟨by rw [exTree_predict0]; norm_num, by decide +kernel, by decide +kernel⟩

/-! ## C74 -/

/-- The claim of C74: cached and uncached normalised values are the same when asked with the coalitions of the construction. -/
def C74_claim : Prop :=
  ∀ (ts : List TreeArr) (m : Nat), (∀ t ∈ ts, WellFormed t m) → ∀ (data : List Row) (C : List (List Nat)) (x : Row) (j k : Nat),
  acvTreeCachedNorm ts m data C C x j k = shapNorm ts m data C x j k

/-- **False of the code**: the cached version puts an observation on a threshold on the other side of it. -/
theorem C74_cache_agrees_false : ¬ C74_claim := by
  intro h
  have := h [exTree] 3 (by simp [exTree_wf3]) exData3 [[]] (fun _ => 1) 0 0
  revert this
  decide +kernel

/-- **C74, partial**: they are the same for every observation no entry of which is a threshold. Missing (false): entries equal to a
threshold. -/
theorem C74_cache_agrees_partial {ts : List TreeArr} {m : Nat} (hts : ∀ t ∈ ts, WellFormed t m) (data : List Row) (C : List (List Nat))
    {x : Row} (hx : ∀ t ∈ ts, OffSplits t x) (j k : Nat) :
    acvTreeCachedNorm ts m data C C x j k = shapNorm ts m data C x j k :=
  cachedNorm_eq hts data C hx j k

/-- **C74, what the cached version computes on a threshold.** For every observation it returns the uncached values of the observation moved up
by a small amount in every entry: an entry equal to a threshold counts as above it. -/
theorem C74_cache_exact {ts : List TreeArr} {m : Nat} (hts : ∀ t ∈ ts, WellFormed t m) (x : Row) :
    ∃ e : ℚ, 0 < e ∧ ∀ d, 0 < d → d ≤ e → ∀ (data : List Row) (C : List (List Nat)) (j k : Nat),
      acvTreeCachedNorm ts m data C C x j k = shapNorm ts m data C (fun i => x i + d) j k := by
  obtain ⟨e, he, h⟩ := satCO_nudge hts x
  exact ⟨e, he, fun d hd hde data C j k => cachedNorm_eq' data C (h d hd hde) j k⟩

/-- On a threshold: the cached value at 1 is the uncached one at 3/2, not the one at 1. -/
example : acvTreeCachedNorm [exTree] 3 exData3 [[]] [[]] (fun _ => 1) 0 0 = shapNorm [exTree] 3 exData3 [[]] (fun _ => 3 / 2) 0 0 ∧
    shapNorm [exTree] 3 exData3 [[]] (fun _ => 3 / 2) 0 0 ≠ shapNorm [exTree] 3 exData3 [[]] (fun _ => 1) 0 0 := by
  constructor <;> decide +kernel

example : (∀ t ∈ [exTree], OffSplits t fun _ => 2) ∧ acvTreeCachedNorm [exTree] 3 exData3 [[2, 1]] [[2, 1]] (fun _ => 2) 1 0 = -19 / 4 :=
  ⟨exTwo_off, by decide +kernel⟩

end Acv
