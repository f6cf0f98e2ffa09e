import Verif.Lemmas.ShapPy
import Verif.Props.Shapley

/-!
# C11, C49: the Python versions of the Shapley values
-/

namespace Acv

/-- Every leaf of every tree contains at least one background row. -/
def LeavesCovered (ts : List TreeArr) (data : List Row) : Prop :=
  ∀ t ∈ ts, ∀ ℓ ∈ t.leafIdx, ∃ z ∈ data, EndsIn t (full z) ℓ

theorem LeavesCovered.cnt {ts : List TreeArr} {m : Nat} (hts : ∀ t ∈ ts, WellFormed t m) {data : List Row}
    (h : LeavesCovered ts data) : ∀ t ∈ ts, ∀ ℓ ∈ t.leafIdx, 0 < cnt data (t.leafRect ℓ) (List.range m) := by
  intro t ht ℓ hℓ
  obtain ⟨z, hz, hze⟩ := h t ht ℓ hℓ
  have hzl : leafAt t z = ℓ := by
    obtain ⟨b, hb⟩ := hts t ht
    rw [endsIn_iff hb, descendObs_full] at hze
    rw [leafAt_eq hb z, ← hze]
  unfold Acv.cnt
  apply List.length_pos_of_mem (a := z)
  rw [List.mem_filter, sat_range, inBox_leaf_iff (hts t ht) z hℓ]
  exact ⟨hz, hzl⟩

theorem exCovered : LeavesCovered [exTree] exData := by
  intro t ht ℓ hℓ
  rw [List.mem_singleton.mp ht] at hℓ ⊢
  have hl : exTree.leafIdx = [1, 3, 4] := by decide +kernel
  rw [hl] at hℓ
  have key : ∀ z : Row, exBTree.descend z = ℓ → EndsIn exTree (full z) ℓ := by
    intro z hz; rw [endsIn_iff exTree_isTree, descendObs_full, hz]
  simp only [List.mem_cons, List.not_mem_nil, or_false] at hℓ
  rcases hℓ with rfl | rfl | rfl
  · exact ⟨fun _ => 0, by simp [exData], key _ (by decide +kernel)⟩
  · exact ⟨fun _ => 2, by simp [exData], key _ (by decide +kernel)⟩
  · exact ⟨fun j => if j = 0 then 2 else 5, by simp [exData], key _ (by decide +kernel)⟩

/-- **C49.** When every leaf contains a background row and no group has a single column, the Python implementation raises
nothing, returns finite numbers, and returns the same numbers as the Cython implementation. -/
theorem C49_python_equals_cython {ts : List TreeArr} {m : Nat} (hts : ∀ t ∈ ts, WellFormed t m) {data : List Row}
    {C : List (List Nat)} (hC : ValidGroups m C) (hns : C = [[]] ∨ ∀ g ∈ C, 1 < g.length) (hm : m < ulongMax) (x : Row)
    (k : Nat) (hcov : LeavesCovered ts data) {j : Nat} (hj : j < m) :
    shapPy ts m data C x j k = .ok (some (shapCy ts m data C x j k)) := by
  obtain ⟨g, hg, hjg⟩ := playerSet_cover (C := C) hj
  rw [shapPy_eq hts hC hns x k (hcov.cnt hts) hg hjg, shapCy_eq hts hC hm x k hg hjg]

example : (∀ t ∈ [exTree], WellFormed t 3) ∧ ValidGroups 3 [[2, 1]] ∧ (∀ g ∈ [[2, 1]], 1 < g.length) ∧
    LeavesCovered [exTree] exData ∧
    shapPy [exTree] 3 exData [[2, 1]] (fun _ => 2) 2 0 = .ok (some (-65 / 12)) := by
  refine ⟨by simp [exTree_wf3], exGroups_valid, by simp, exCovered, ?_⟩
  rw [C49_python_equals_cython (by simp [exTree_wf3]) exGroups_valid (Or.inr (by simp)) (by decide) _ _ exCovered (by decide)]
  congr 2
  decide +kernel

/-- Both hypotheses of C49 are needed: with a group of one column the Python version raises `ValueError` ... -/
theorem C49_singleton_group_raises :
    ValidGroups 3 [[2], [1]] ∧ LeavesCovered [exTree] exData ∧
      (shapPy [exTree] 3 exData [[2], [1]] (fun _ => 2) 2 0).toOption = none := by
  refine ⟨Or.inr (by simp), exCovered, by decide +kernel⟩

/-- ... and with an empty leaf it returns NaN where the Cython version returns a number. -/
theorem C49_empty_leaf_nan :
    (shapPy [exTree] 3 [fun _ => 0] [[2, 1]] (fun _ => 2) 2 0).toOption = some none ∧
      shapCy [exTree] 3 [fun _ => 0] [[2, 1]] (fun _ => 2) 2 0 = 0 := by
  constructor <;> decide +kernel

/-- The claim of C11: for every valid input the values returned by `py_shap_valuesv2` are numbers and sum, over the
players, to prediction minus mean prediction. -/
def C11_claim : Prop :=
  ∀ (ts : List TreeArr) (m : Nat), (∀ t ∈ ts, WellFormed t m) → ∀ (data : List Row), data ≠ [] →
  ∀ (C : List (List Nat)), ValidGroups m C → ∀ (x : Row) (k : Nat) (base : Nat → ℚ) (P : Row → ℚ),
  (∀ z, ensemblePredict ts none none base (full z) k = some (P z)) → LeavesCovered ts data →
  ∀ rep : List Nat → Nat, (∀ g ∈ playerSet m C, rep g ∈ g) →
  ∃ φ : List Nat → ℚ, (∀ g ∈ playerSet m C, shapV2 ts m data C x (rep g) k = some (φ g)) ∧
    ∑ g ∈ playerSet m C, φ g = P x - (data.map P).sum / data.length

/-- **C11 is false of the code.** -/
theorem C11_v2_efficiency_false : ¬ C11_claim := by
  intro h
  obtain ⟨φ, h1, h2⟩ := h [exTree] 3 (by simp [exTree_wf3]) exData (by simp [exData]) [[2, 1]] exGroups_valid
    (fun _ => 2) 0 (fun _ => 1) _ exTree_predict exCovered (fun g => g.headD 0) (by decide)
  have hp : playerSet 3 [[2, 1]] = {[2, 1], [0]} := by decide
  have e1 := h1 [2, 1] (by decide)
  have e2 := h1 [0] (by decide)
  have f1 : shapV2 [exTree] 3 exData [[2, 1]] (fun _ => 2) 2 0 = some (-35 / 6) := by decide +kernel
  have f2 : shapV2 [exTree] 3 exData [[2, 1]] (fun _ => 2) 0 0 = some 0 := by decide +kernel
  simp only [List.headD_cons] at e1 e2
  rw [f1] at e1
  rw [f2] at e2
  have g1 := Option.some.inj e1
  have g2 := Option.some.inj e2
  rw [hp, Finset.sum_insert (by decide), Finset.sum_singleton, ← g1, ← g2] at h2
  revert h2
  simp [exData]
  norm_num

/-- What goes wrong, for all inputs: as soon as some coalition is given, every ungrouped column gets exactly 0, even when
the trees split on it. -/
theorem C11_v2_ungrouped_zero {ts : List TreeArr} {m : Nat} (hts : ∀ t ∈ ts, WellFormed t m) (data : List Row)
    {C : List (List Nat)} (hC : ValidGroups m C) (hC' : C ≠ [[]]) (x : Row) (k : Nat) {j : Nat}
    (hj : ∀ g ∈ C, j ∉ g) : shapV2 ts m data C x j k = some 0 :=
  shapV2_free hts data hC hC' x k hj

/-- **C11, partial**: without coalitions, or when every column tested by the trees is in a group, version 2 returns the
Shapley values, hence satisfies the claim. Missing (false): coalitions that leave a tested column ungrouped. -/
theorem C11_v2_efficiency_partial {ts : List TreeArr} {m : Nat} (hts : ∀ t ∈ ts, WellFormed t m) {data : List Row}
    (hdata : data ≠ []) {C : List (List Nat)} (hC : ValidGroups m C) (hm : m < ulongMax)
    (hcov : C = [[]] ∨ ∀ t ∈ ts, ∀ n < t.size, 0 ≤ t.left n → ∃ g ∈ C, (t.feature n).toNat ∈ g)
    (x : Row) (k : Nat) (base : Nat → ℚ) (P : Row → ℚ)
    (hP : ∀ z, ensemblePredict ts none none base (full z) k = some (P z)) (hleaf : LeavesCovered ts data)
    (rep : List Nat → Nat) (hrep : ∀ g ∈ playerSet m C, rep g ∈ g) :
    ∃ φ : List Nat → ℚ, (∀ g ∈ playerSet m C, shapV2 ts m data C x (rep g) k = some (φ g) ∧
        φ g = shapley (playerSet m C) (leafGame ts m data x k) g) ∧
      ∑ g ∈ playerSet m C, φ g = P x - (data.map P).sum / data.length := by
  have hcov' : C = [[]] ∨ ∀ t ∈ ts, ∀ ℓ ∈ t.leafIdx, ∀ i ∈ t.leafCols ℓ, ∃ g ∈ C, i ∈ g := by
    refine hcov.imp_right fun h t ht ℓ hℓ i hi => ?_
    obtain ⟨f, hf, rfl⟩ := List.mem_map.mp hi
    obtain ⟨n, p, hn, ha, hfp⟩ := ((C02_leaf_variables_complete (hts t ht) hℓ).1 f).mp hf
    obtain ⟨hp, hl, hnn⟩ := above_internal (hts t ht) hn ha
    rw [← hfp]
    exact h t ht p hp hl
  refine ⟨fun g => shapley (playerSet m C) (leafGame ts m data x k) g, fun g hg =>
    ⟨shapV2_eq hts hC x k hcov' (hleaf.cnt hts) hg (hrep g hg), rfl⟩, ?_⟩
  rw [← C07_efficiency hts hdata hC hm x k base P hP (fun t ht ℓ hℓ => by
    refine hleaf t ht ℓ ?_
    obtain ⟨b, hb⟩ := hts t ht
    rw [endsIn_iff hb, descendObs_full] at hℓ
    rw [leafIdx_iff hb, hℓ]
    exact b.descend_mem x) rep hrep]
  exact Finset.sum_congr rfl fun g hg => (shapCy_eq hts hC hm x k hg (hrep g hg)).symm

example : ∃ C : List (List Nat), C ≠ [[]] ∧ ValidGroups 3 C ∧
    (∀ t ∈ [exTree], ∀ n < t.size, 0 ≤ t.left n → ∃ g ∈ C, (t.feature n).toNat ∈ g) ∧
    shapV2 [exTree] 3 exData C (fun _ => 2) 0 0 = some (5 / 2) := by
  refine ⟨[[0, 1]], by simp, Or.inr (by simp), ?_, by decide +kernel⟩
  intro t ht
  rw [List.mem_singleton.mp ht]
  decide

end Acv
