import Verif.Lemmas.LeafShap
import Verif.Props.Tree

/-!
# C06-C10: Shapley values of the leaf estimator
-/

namespace Acv

/-- **C06.** For every ensemble of well-formed trees over `m` columns, every non-empty background dataset, every valid
coalition argument, every observation, output and column `j` of a player `g`, the value computed by the leaf estimator
is the textbook Shapley value of `g` in the leaf game over all players. -/
theorem C06_leaf_estimator_is_shapley_value {ts : List TreeArr} {m : Nat} (hts : ∀ t ∈ ts, WellFormed t m)
    {data : List Row} (_hdata : data ≠ []) {C : List (List Nat)} (hC : ValidGroups m C) (hm : m < ulongMax) (x : Row)
    (k : Nat) {g : List Nat} (hg : g ∈ playerSet m C) {j : Nat} (hj : j ∈ g) :
    shapCy ts m data C x j k = shapley (playerSet m C) (leafGame ts m data x k) g :=
  shapCy_eq hts hC hm x k hg hj

/-- every column belongs to exactly one player, so C06 determines the whole output -/
theorem C06_players_partition {m : Nat} {C : List (List Nat)} (hC : ValidGroups m C) {j : Nat} (hj : j < m) :
    ∃! g, g ∈ playerSet m C ∧ j ∈ g := by
  obtain ⟨g, hg, hjg⟩ := playerSet_cover (C := C) hj
  exact ⟨g, ⟨hg, hjg⟩, fun g' hg' => playerSet_disjoint hC hg'.1 hg hg'.2 hjg⟩

def exData : List Row := [fun _ => 0, fun _ => 2, fun j => if j = 0 then 2 else 5, fun _ => 1]

theorem exGroups_valid : ValidGroups 3 [[2, 1]] := by
  right; simp

theorem exTree_wf3 : WellFormed exTree 3 := by
  refine ⟨exBTree, ?_⟩
  have := exTree_isTree
  exact ⟨this.root, this.enc, this.nodup, this.all, fun f hf => lt_trans (this.vars f hf) (by decide)⟩

example : (∀ t ∈ [exTree], WellFormed t 3) ∧ exData ≠ [] ∧ ValidGroups 3 [[2, 1]] ∧ 3 < ulongMax ∧
    [2, 1] ∈ playerSet 3 [[2, 1]] ∧ [0] ∈ playerSet 3 [[2, 1]] ∧
    shapCy [exTree] 3 exData [[2, 1]] (fun _ => 2) 2 0 = -65 / 12 ∧
    shapCy [exTree] 3 exData [[2, 1]] (fun _ => 2) 0 0 = 95 / 12 := by
  refine ⟨by simp [exTree_wf3], by simp [exData], exGroups_valid, by decide, by decide, by decide, ?_, ?_⟩ <;>
    decide +kernel

/-- **C07.** Efficiency. Let `P z` be what `predict` returns for `z` (with the ensemble's offset and no tree limit). If
the leaf of `x` in each tree contains at least one background row, the Shapley values of the players (read off at any
column of each player) sum to `P x` minus the mean of `P` over the background data. -/
theorem C07_efficiency {ts : List TreeArr} {m : Nat} (hts : ∀ t ∈ ts, WellFormed t m) {data : List Row}
    (hdata : data ≠ []) {C : List (List Nat)} (hC : ValidGroups m C) (hm : m < ulongMax) (x : Row) (k : Nat)
    (base : Nat → ℚ) (P : Row → ℚ) (hP : ∀ z, ensemblePredict ts none none base (full z) k = some (P z))
    (hleaf : ∀ t ∈ ts, ∀ ℓ, EndsIn t (full x) ℓ → ∃ z ∈ data, EndsIn t (full z) ℓ)
    (rep : List Nat → Nat) (hrep : ∀ g ∈ playerSet m C, rep g ∈ g) :
    ∑ g ∈ playerSet m C, shapCy ts m data C x (rep g) k = P x - (data.map P).sum / data.length := by
  rw [Finset.sum_congr rfl fun g hg => shapCy_eq hts hC hm x k hg (hrep g hg), shapley_efficiency,
    leafGame_full hts hC x k hleaf, leafGame_empty hts hdata x k]
  have hp : ∀ z, P z = base k + (ts.map fun t => t.value (leafAt t z) k).sum := by
    intro z
    have h1 := (C03_predict_is_sum_of_leaf_values hts none none base (full z) k).2 (fun t => leafAt t z)
      (fun t ht => leafAt_endsIn (hts t ht) z)
    have h2 : effLimit ts.length none none = ts.length := by rw [C03_tree_limit]; rfl
    rw [h2, List.take_length, hP z] at h1
    exact Option.some.inj h1
  have hN : (data.length : ℚ) ≠ 0 := by
    have := List.length_pos_of_ne_nil hdata; positivity
  have : (data.map P).sum = data.length * base k + (data.map fun z => (ts.map fun t => t.value (leafAt t z) k).sum).sum := by
    clear hleaf hdata hN
    induction data with
    | nil => simp
    | cons z data ih => simp only [List.map_cons, List.sum_cons, ih, hp z, List.length_cons]; push_cast; ring
  rw [this, hp x]
  field_simp
  ring

/-- **C07, without coalitions**: the values of all columns sum to prediction minus mean prediction. -/
theorem C07_efficiency_columns {ts : List TreeArr} {m : Nat} (hts : ∀ t ∈ ts, WellFormed t m) {data : List Row}
    (hdata : data ≠ []) (hm : m < ulongMax) (x : Row) (k : Nat)
    (base : Nat → ℚ) (P : Row → ℚ) (hP : ∀ z, ensemblePredict ts none none base (full z) k = some (P z))
    (hleaf : ∀ t ∈ ts, ∀ ℓ, EndsIn t (full x) ℓ → ∃ z ∈ data, EndsIn t (full z) ℓ) :
    ∑ j ∈ Finset.range m, shapCy ts m data [[]] x j k = P x - (data.map P).sum / data.length := by
  have h := C07_efficiency hts hdata (C := [[]]) (Or.inl rfl) hm x k base P hP hleaf (fun g => g.headD 0) (by
    intro g hg
    obtain ⟨h1, _, _⟩ := playerSet_lt (Or.inl rfl) hg
    obtain ⟨a, l, rfl⟩ := List.exists_cons_of_ne_nil h1
    simp)
  rw [← h]
  have hps : playerSet m [[]] = (Finset.range m).image ([·]) := by
    ext c; simp [playerSet]
  rw [hps, Finset.sum_image (by intro a _ b _ h; simpa using h)]
  simp

theorem exTree_predict (z : Row) : ensemblePredict [exTree] none none (fun _ => 1) (full z) 0 =
    some (1 + if z 0 ≤ 1 then 10 else if z 1 ≤ 3 then 20 else 30) := by
  have h := (C03_predict_is_sum_of_leaf_values (ts := [exTree]) (d := 3) (by simp [exTree_wf3]) none none (fun _ => 1)
    (full z) 0).2 (fun _ => exBTree.descend z) (by
      intro t ht
      rw [List.mem_singleton.mp ht, endsIn_iff exTree_isTree, descendObs_full])
  rw [h]
  have h2 : effLimit [exTree].length none none = 1 := by rw [C03_tree_limit]; rfl
  rw [h2]
  simp only [List.take_succ_cons, List.take_zero, List.map_cons, List.map_nil, List.sum_cons, List.sum_nil, exBTree,
    BTree.descend]
  by_cases h0 : z 0 ≤ 1
  · simp [h0, exTree]
  · by_cases h1 : z 1 ≤ 3 <;> simp [h0, h1, exTree]

/-- the hypotheses of C07 are met by a concrete ensemble, and the sum is as computed -/
example : (∀ t ∈ [exTree], WellFormed t 3) ∧ exData ≠ [] ∧
    (∀ t ∈ [exTree], ∀ ℓ, EndsIn t (full fun _ => 2) ℓ → ∃ z ∈ exData, EndsIn t (full z) ℓ) ∧
    (∀ z, ensemblePredict [exTree] none none (fun _ => 1) (full z) 0 =
      some (1 + if z 0 ≤ 1 then 10 else if z 1 ≤ 3 then 20 else 30)) ∧
    ((List.range 3).map fun j => shapCy [exTree] 3 exData [[]] (fun _ => 2) j 0).sum = 5 / 2 := by
  refine ⟨by simp [exTree_wf3], by simp [exData], ?_, exTree_predict, by decide +kernel⟩
  intro t ht ℓ hℓ
  exact ⟨fun _ => 2, by simp [exData], hℓ⟩

/-- **C08.** If no split of the ensemble tests a column of the player of `j`, the value of `j` is 0. -/
theorem C08_unused_variable_zero {ts : List TreeArr} {m : Nat} (hts : ∀ t ∈ ts, WellFormed t m) {data : List Row}
    {C : List (List Nat)} (hC : ValidGroups m C) (x : Row) (k : Nat) {g : List Nat} (hg : g ∈ playerSet m C)
    {j : Nat} (hj : j ∈ g)
    (hunused : ∀ t ∈ ts, ∀ n < t.size, 0 ≤ t.left n → ∀ s ∈ g, t.feature n ≠ (s : Int)) :
    shapCy ts m data C x j k = 0 := by
  unfold shapCy
  have : ∀ t ∈ ts, (t.leafIdx.map fun ℓ =>
      cyLeafPhi m data C (t.leafRect ℓ) (t.leafCols ℓ) x j * t.value ℓ k).sum = 0 := by
    intro t ht
    apply List.sum_eq_zero
    intro a ha
    obtain ⟨ℓ, hℓ, rfl⟩ := List.mem_map.mp ha
    rw [cyLeafPhi_zero (hts t ht) hℓ hC x hg hj, zero_mul]
    intro s hs hmem
    obtain ⟨f, hf, rfl⟩ := List.mem_map.mp hmem
    have h2 := (C02_leaf_variables_complete (hts t ht) hℓ).1 f
    obtain ⟨n, p, hn, ha, hfp⟩ := h2.mp hf
    obtain ⟨hp, hl, hnn⟩ := above_internal (hts t ht) hn ha
    refine hunused t ht p hp hl _ hs ?_
    omega
  rw [List.map_congr_left (g := fun _ => (0 : ℚ)) this]
  simp

example : (∀ t ∈ [exTree], ∀ n < t.size, 0 ≤ t.left n → ∀ s ∈ [2], t.feature n ≠ ((s : Nat) : Int)) ∧
    [2] ∈ playerSet 3 [[]] := by
  refine ⟨?_, by decide⟩
  intro t ht
  rw [List.mem_singleton.mp ht]
  decide

/-- **C09.** All columns of one player get the same value. -/
theorem C09_group_members_share_value {ts : List TreeArr} {m : Nat} (hts : ∀ t ∈ ts, WellFormed t m) {data : List Row}
    {C : List (List Nat)} (hC : ValidGroups m C) (hm : m < ulongMax) (x : Row) (k : Nat) {g : List Nat}
    (hg : g ∈ C) {j j' : Nat} (hj : j ∈ g) (hj' : j' ∈ g) :
    shapCy ts m data C x j k = shapCy ts m data C x j' k := by
  have hgp : g ∈ playerSet m C := mem_playerSet.mpr (Or.inl ⟨hg, List.ne_nil_of_mem hj⟩)
  rw [shapCy_eq hts hC hm x k hgp hj, shapCy_eq hts hC hm x k hgp hj']

example : ValidGroups 3 [[2, 1]] ∧ [2, 1] ∈ [[2, 1]] ∧ 1 ∈ [2, 1] ∧
    shapCy [exTree] 3 exData [[2, 1]] (fun _ => 2) 1 0 = shapCy [exTree] 3 exData [[2, 1]] (fun _ => 2) 2 0 := by
  refine ⟨exGroups_valid, by simp, by simp, by decide +kernel⟩

/-- The tree with all leaf values multiplied by `c`. -/
def TreeArr.scale (c : ℚ) (t : TreeArr) : TreeArr := { t with value := fun n k => c * t.value n k }

theorem getPartition_scale (c : ℚ) (t : TreeArr) : ∀ fuel id part ids,
    (t.scale c).getPartition fuel id part ids = t.getPartition fuel id part ids := by
  intro fuel
  induction fuel with
  | zero => intros; rfl
  | succ n ih =>
    intro id part ids
    unfold TreeArr.getPartition
    simp only [ih]
    rfl

/-- **C10.** The values of an ensemble are the sums of the values of its parts, and scaling all leaf values scales the
values. (No hypothesis on the trees.) -/
theorem C10_additive_and_linear (ts ts' : List TreeArr) (m : Nat) (data : List Row) (C : List (List Nat)) (x : Row)
    (j k : Nat) (c : ℚ) :
    shapCy (ts ++ ts') m data C x j k = shapCy ts m data C x j k + shapCy ts' m data C x j k ∧
    shapCy (ts.map (·.scale c)) m data C x j k = c * shapCy ts m data C x j k := by
  constructor
  · unfold shapCy
    rw [List.map_append, List.sum_append, add_div]
  · unfold shapCy
    rw [List.map_map, ← mul_div_assoc]
    congr 1
    rw [← List.sum_map_mul_left]
    congr 1
    apply List.map_congr_left
    intro t _
    rw [← List.sum_map_mul_left]
    simp only [Function.comp]
    congr 1
    apply List.map_congr_left
    intro ℓ _
    have h1 : (t.scale c).leafRect ℓ = t.leafRect ℓ := by
      unfold TreeArr.leafRect; rw [getPartition_scale]; rfl
    have h2 : (t.scale c).leafCols ℓ = t.leafCols ℓ := by
      unfold TreeArr.leafCols TreeArr.leafVars; rw [getPartition_scale]; rfl
    rw [h1, h2]
    show cyLeafPhi m data C (t.leafRect ℓ) (t.leafCols ℓ) x j * (c * t.value ℓ k) = _
    ring

example : shapCy [exTree, exTree.scale 3] 3 exData [[]] (fun _ => 2) 0 0 = 95 / 3 := by decide +kernel

end Acv
