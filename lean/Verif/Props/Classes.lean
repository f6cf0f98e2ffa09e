import Verif.Props.Range

/-!
# C127: the classes of a classifier

In a classification tree the values of a leaf are proportions of the classes and add up to 1. Expectations over the classes then add up to 1, and what a column
adds to one class it takes from the others.
-/

namespace Acv

/-- In every leaf of the tree `t` the values of the outputs `0, .., K - 1` add up to `c t`. -/
def LeafTotals (ts : List TreeArr) (K : Nat) (c : TreeArr → ℚ) : Prop := ∀ t ∈ ts, ∀ ℓ ∈ t.leafIdx, ∑ k ∈ Finset.range K, t.value ℓ k = c t

theorem sum_classes_list {K : Nat} {κ : Type} (l : List κ) (f : κ → Nat → ℚ) :
    ∑ k ∈ Finset.range K, (l.map fun a => f a k).sum = (l.map fun a => ∑ k ∈ Finset.range K, f a k).sum := by
  induction l with
  | nil => simp
  | cons a l ih => simp only [List.map_cons, List.sum_cons, Finset.sum_add_distrib, ih]

/-- The predictions of the outputs add up to the totals of the leaves, apart from the base values. -/
theorem totals_predict {ts : List TreeArr} {m : Nat} (hts : ∀ t ∈ ts, WellFormed t m) {K : Nat} {c : TreeArr → ℚ} (hc : LeafTotals ts K c) {base : Nat → ℚ}
    {P : Nat → Row → ℚ} (hP : ∀ k z, ensemblePredict ts none none base (full z) k = some (P k z)) (z : Row) :
    ∑ k ∈ Finset.range K, P k z = ∑ k ∈ Finset.range K, base k + (ts.map c).sum := by
  have h : ∀ k, P k z = base k + (ts.map fun t => t.value (leafAt t z) k).sum := fun k => by
    rw [predict_leafAt hts (hP k z)]; ring
  simp only [h, Finset.sum_add_distrib, sum_classes_list]
  congr 2
  exact List.map_congr_left fun t ht => hc t ht _ (leafAt_mem (hts t ht) z)

theorem sum_meanOver {rows : List Row} (hne : rows ≠ []) {K : Nat} {P : Nat → Row → ℚ} {s : ℚ} (h : ∀ z ∈ rows, ∑ k ∈ Finset.range K, P k z = s) :
    ∑ k ∈ Finset.range K, meanOver rows (P k) = s := by
  unfold meanOver
  rw [← Finset.sum_div, sum_classes_list rows fun z k => P k z, List.map_congr_left h]
  have hl : (rows.length : ℚ) ≠ 0 := by exact_mod_cast (List.length_pos_of_ne_nil hne).ne'
  simp [hl]

/-- **C127, `compute_exp_cat`**: the results for the classes add up to the totals of the leaves (1 for a classification tree), if a data row has the values of
the observation. -/
theorem C127_cat {ts : List TreeArr} {m : Nat} (hts : ∀ t ∈ ts, WellFormed t m) {K : Nat} {c : TreeArr → ℚ} (hc : LeafTotals ts K c) (data : List Row)
    {S : List Nat} (hS : ∀ s ∈ S, s < m) (x : Row) (hne : ∃ z ∈ data, ∀ s ∈ S, z s = x s) :
    ∑ k ∈ Finset.range K, expCatCy ts m data S x k = (ts.map c).sum := by
  have hex := fun k => predicts hts (fun _ => 0) k
  choose P hP using hex
  obtain ⟨z, hz, hzs⟩ := hne
  have hne' : matching S x data ≠ [] := by
    apply List.ne_nil_of_mem (a := z)
    rw [matching_eq, List.mem_filter, eqOn_iff]
    exact ⟨hz, hzs⟩
  rw [Finset.sum_congr rfl fun k _ => (C20_cat_is_conditional_mean hts data hS x k (fun _ => 0) (P k) (hP k)).1 hne']
  simp only [sub_zero]
  exact sum_meanOver hne' fun z _ => by rw [totals_predict hts hc hP z]; simp

/-- **C127, the normalised `compute_exp`**: the results for the classes are numbers that add up to the totals of the leaves, if every leaf holds a data row. -/
theorem C127_norm {ts : List TreeArr} {m : Nat} (hts : ∀ t ∈ ts, WellFormed t m) {K : Nat} {c : TreeArr → ℚ} (hc : LeafTotals ts K c) {data : List Row}
    (hcov : LeavesCovered ts data) {S : List Nat} (hS : ∀ s ∈ S, s < m) (x : Row) :
    ∃ e : Nat → ℚ, (∀ k, expNormCy ts m data S x k = some (e k)) ∧ ∑ k ∈ Finset.range K, e k = (ts.map c).sum := by
  obtain ⟨w, hw, he⟩ := C72_convex_combination hts hcov hS x
  refine ⟨_, he, ?_⟩
  rw [sum_classes_list]
  congr 1
  refine List.map_congr_left fun t ht => ?_
  rw [sum_classes_list]
  have : (t.leafIdx.map fun ℓ => ∑ k ∈ Finset.range K, t.value ℓ k * w t ℓ) = t.leafIdx.map fun ℓ => c t * w t ℓ :=
    List.map_congr_left fun ℓ hℓ => by rw [← Finset.sum_mul, hc t ht ℓ hℓ]
  rw [this, List.sum_map_mul_left, (hw t ht).2.1, mul_one]

/-- Shapley values of games that add up to a constant add up to 0. -/
theorem shapley_sum_const {ι : Type} [DecidableEq ι] {P : Finset ι} {K : Nat} {v : Nat → Finset ι → ℚ} {s : ℚ}
    (h : ∀ S, S ⊆ P → ∑ k ∈ Finset.range K, v k S = s) {i : ι} (hi : i ∈ P) : ∑ k ∈ Finset.range K, shapley P (v k) i = 0 := by
  unfold shapley
  rw [Finset.sum_comm]
  refine Finset.sum_eq_zero fun S hS => ?_
  have hS' : S ⊆ P := (Finset.mem_powerset.1 hS).trans (Finset.erase_subset _ _)
  rw [← Finset.mul_sum, Finset.sum_sub_distrib, h S hS', h _ (Finset.insert_subset hi hS'), sub_self, mul_zero]

/-- **C127, `py_shap_values_notoptimized`**: with every leaf covered and no entry on a threshold, the values of a column for the classes add up to 0. -/
theorem C127_notoptimized {ts : List TreeArr} {m : Nat} (hts : ∀ t ∈ ts, WellFormed t m) {K : Nat} {c : TreeArr → ℚ} (hc : LeafTotals ts K c)
    {data : List Row} (hdata : data ≠ []) (hcov : LeavesCovered ts data) {C : List (List Nat)} (hC : ValidGroups m C)
    (hns : C = [[]] ∨ ∀ g ∈ C, 1 < g.length) {x : Row} (hx : ∀ t ∈ ts, OffSplits t x) (hd : ∀ t ∈ ts, ∀ z ∈ data, OffSplits t z) {j : Nat} (hj : j < m) :
    ∃ φ : Nat → ℚ, (∀ k, shapNotOptimized ts m data C x j k = .ok (some (φ k))) ∧ ∑ k ∈ Finset.range K, φ k = 0 := by
  obtain ⟨g, hg, hjg⟩ := playerSet_cover (C := C) hj
  refine ⟨fun k => shapley (playerSet m C) (normGame ts m data x k) g, fun k => ?_, ?_⟩
  · obtain ⟨P, hP⟩ := predicts hts (fun _ => 0) k
    obtain ⟨φ, h1, h2, _⟩ := C75_notoptimized_partial hts hdata hcov hC hns k hP hx hd
    rw [h1 g hg j hjg, h2 g hg]
  · refine shapley_sum_const (s := (ts.map c).sum) (fun S hS => ?_) hg
    have hlt : ∀ s ∈ S.toList.flatten, s < m := by
      intro s hs
      obtain ⟨a, ha, hsa⟩ := List.mem_flatten.mp hs
      exact (playerSet_lt hC (hS (Finset.mem_toList.1 ha))).2.2 s hsa
    obtain ⟨e, he, hsum⟩ := C127_norm hts hc hcov hlt x
    rw [← hsum]
    refine Finset.sum_congr rfl fun k _ => ?_
    have := he k
    rw [C72_is_normalised_game hts hcov hlt k hx hd, normGame_flatten, Finset.toList_toFinset] at this
    exact Option.some.inj this

/-- **C127, `py_shap_values_discrete_notoptimized`**: if a data row equals the observation, the values of a column for the classes add up to 0. -/
theorem C127_discrete {ts : List TreeArr} {m : Nat} (hts : ∀ t ∈ ts, WellFormed t m) {K : Nat} {c : TreeArr → ℚ} (hc : LeafTotals ts K c) (data : List Row)
    {C : List (List Nat)} (hC : ValidGroups m C) (hns : C = [[]] ∨ ∀ g ∈ C, 1 < g.length) (x : Row) (hx : ∃ z ∈ data, ∀ s < m, z s = x s) {j : Nat}
    (hj : j < m) :
    ∃ φ : Nat → ℚ, (∀ k, shapDiscrete ts m data C x j k = .ok (some (φ k))) ∧ ∑ k ∈ Finset.range K, φ k = 0 := by
  classical
  obtain ⟨g, hg, hjg⟩ := playerSet_cover (C := C) hj
  have hex := fun k => predicts hts (fun _ => 0) k
  choose P hP using hex
  refine ⟨fun k => shapley (playerSet m C) (condMeanGame data (P k) 0 x) g, fun k => (C75_discrete hts data hC hns x k (hP k)).1 g hg j hjg, ?_⟩
  refine shapley_sum_const (s := (ts.map c).sum) (fun S hS => ?_) hg
  obtain ⟨z, hz, hzx⟩ := hx
  have hne : (data.filter fun z => decide (∀ g ∈ S, ∀ s ∈ g, z s = x s)) ≠ [] := by
    apply List.ne_nil_of_mem (a := z)
    rw [List.mem_filter]
    exact ⟨hz, decide_eq_true fun g' hg' s hs => hzx s ((playerSet_lt hC (hS hg')).2.2 s hs)⟩
  unfold condMeanGame
  simp only [hne, if_false, sub_zero]
  exact sum_meanOver hne fun z _ => by rw [totals_predict hts hc hP z]; simp

/-- **C127, Shapley values of `shap_values`, what holds**: all values together, over the columns and the classes, add up to 0, if the leaves of the observation
hold data rows. -/
theorem C127_shap_partial {ts : List TreeArr} {m : Nat} (hts : ∀ t ∈ ts, WellFormed t m) {K : Nat} {c : TreeArr → ℚ} (hc : LeafTotals ts K c)
    {data : List Row} (hdata : data ≠ []) (hm : m < ulongMax) (x : Row)
    (hleaf : ∀ t ∈ ts, ∀ ℓ, EndsIn t (full x) ℓ → ∃ z ∈ data, EndsIn t (full z) ℓ) :
    ∑ k ∈ Finset.range K, ∑ j ∈ Finset.range m, shapCy ts m data [[]] x j k = 0 := by
  have hex := fun k => predicts hts (fun _ => 0) k
  choose P hP using hex
  rw [Finset.sum_congr rfl fun k _ => C07_efficiency_columns hts hdata hm x k (fun _ => 0) (P k) (hP k) hleaf, Finset.sum_sub_distrib,
    totals_predict hts hc hP x]
  have := sum_meanOver hdata (P := P) (K := K) fun z _ => totals_predict hts hc hP z
  unfold meanOver at this
  rw [this, sub_self]

/-! ## `compute_exp` and `shap_values` -/

/-- A classification tree with the tests of `oneTree`: class 0 has the proportions 1/2, 1/2 and 1 in the leaves. -/
def twoClasses : TreeArr :=
  { bothAbove 1 0 with value := fun n k => if k = 0 then ([0, 1/2, 0, 1/2, 1] : List ℚ).getD n 0 else ([0, 1/2, 0, 1/2, 0] : List ℚ).getD n 0 }

theorem twoClasses_wf : ∀ t ∈ [twoClasses], WellFormed t 2 := by
  intro t ht
  rw [List.mem_singleton.mp ht]
  refine ⟨.node 0 1 1 (.leaf 1) (.node 2 0 1 (.leaf 3) (.leaf 4)), rfl, ?_, ?_, ?_, ?_⟩
  · simp [Encodes, twoClasses, bothAbove, exTree, BTree.id]
  · simp [BTree.ids]
  · exact (bothAbove_isTree (a := 1) (b := 0) (by norm_num) (by norm_num)).all
  · simp [BTree.vars]

theorem twoClasses_totals : LeafTotals [twoClasses] 2 fun _ => 1 := by
  intro t ht
  rw [List.mem_singleton.mp ht]
  decide +kernel

theorem twoClasses_off : ∀ t ∈ [twoClasses], ∀ z ∈ diagRows, OffSplits t z := by
  intro t ht
  rw [List.mem_singleton.mp ht]
  unfold OffSplits
  decide +kernel

/-- The claim of C127 for an expectation of a classifier with two columns and two classes: the classes add up to 1. -/
def C127_exp_claim (f : List TreeArr → List Row → Row → Nat → ℚ) : Prop := ∀ (ts : List TreeArr), (∀ t ∈ ts, WellFormed t 2) → ∀ c : TreeArr → ℚ,
  LeafTotals ts 2 c → (ts.map c).sum = 1 → ∀ (data : List Row) (x : Row), x ∈ data → (∀ t ∈ ts, ∀ z ∈ data, OffSplits t z) → f ts data x 0 + f ts data x 1 = 1

/-- The claim of C127 for Shapley values: the values for the two classes are opposite. -/
def C127_shap_claim (f : List TreeArr → List Row → Row → Nat → ℚ) : Prop := ∀ (ts : List TreeArr), (∀ t ∈ ts, WellFormed t 2) → ∀ c : TreeArr → ℚ,
  LeafTotals ts 2 c → (ts.map c).sum = 1 → ∀ (data : List Row) (x : Row), x ∈ data → (∀ t ∈ ts, ∀ z ∈ data, OffSplits t z) → f ts data x 1 = - f ts data x 0

/-- **C127 is false of `compute_exp`, in both implementations, and of `shap_values`**: the expectations of the two classes add up to 3/2, and what a column adds
to one class it does not take from the other. -/
theorem C127_false : ¬ C127_exp_claim (fun ts data x k => expCy ts 2 data [0] x k) ∧
    ¬ C127_exp_claim (fun ts data x k => (expPy ts 2 data [0] x k).toOption.getD 0) ∧
    ¬ C127_shap_claim (fun ts data x k => shapCy ts 2 data [[]] x 0 k) := by
  refine ⟨fun h => ?_, fun h => ?_, fun h => ?_⟩
  all_goals
    have := h [twoClasses] twoClasses_wf (fun _ => 1) twoClasses_totals (by simp) diagRows (fun _ => 2) (by simp [diagRows]) twoClasses_off
    revert this
    decide +kernel

/-- The hypotheses of the theorems on the same tree and data. -/
example : LeafTotals [twoClasses] 2 (fun _ => 1) ∧ (∃ z ∈ diagRows, ∀ s < 2, z s = (fun _ => 2 : Row) s) ∧ ValidGroups 2 [[]] ∧
    expCatCy [twoClasses] 2 diagRows [0] (fun _ => 2) 0 + expCatCy [twoClasses] 2 diagRows [0] (fun _ => 2) 1 = 1 := by
  refine ⟨twoClasses_totals, ⟨fun _ => 2, by simp [diagRows], fun _ _ => rfl⟩, Or.inl rfl, by decide +kernel⟩

/-- A row in every leaf of `twoClasses`. -/
def leafRows : List Row := [fun _ => 2, fun _ => 0, fun i => if i = 0 then 0 else 2]

/-- **C127 is false of `shap_values_normalized`** too, with a data row in every leaf and no entry on a threshold: 1/4 and -5/24 for the two classes. -/
theorem C127_normalized_false : LeavesCovered [twoClasses] leafRows ∧ (∀ t ∈ [twoClasses], ∀ z ∈ leafRows, OffSplits t z) ∧
    shapNorm [twoClasses] 2 leafRows [[]] (fun _ => 2) 0 0 = 1 / 4 ∧ shapNorm [twoClasses] 2 leafRows [[]] (fun _ => 2) 0 1 = -5 / 24 ∧
    ∃ φ : Nat → ℚ, (∀ k, shapNotOptimized [twoClasses] 2 leafRows [[]] (fun _ => 2) 0 k = .ok (some (φ k))) ∧ ∑ k ∈ Finset.range 2, φ k = 0 := by
  have hoff : ∀ t ∈ [twoClasses], ∀ z ∈ leafRows, OffSplits t z := by
    intro t ht
    rw [List.mem_singleton.mp ht]
    unfold OffSplits
    decide +kernel
  have hcov : LeavesCovered [twoClasses] leafRows := by
    intro t ht ℓ hℓ
    have hw := twoClasses_wf t ht
    rw [List.mem_singleton.mp ht] at hℓ hw ⊢
    have hl : twoClasses.leafIdx = [1, 3, 4] := by decide +kernel
    rw [hl] at hℓ
    have key : ∀ z : Row, leafAt twoClasses z = ℓ → EndsIn twoClasses (full z) ℓ := fun z hz => hz ▸ leafAt_endsIn hw z
    simp only [List.mem_cons, List.not_mem_nil, or_false] at hℓ
    rcases hℓ with rfl | rfl | rfl
    · exact ⟨fun _ => 0, by simp [leafRows], key _ (by decide +kernel)⟩
    · exact ⟨fun i => if i = 0 then 0 else 2, by simp [leafRows], key _ (by decide +kernel)⟩
    · exact ⟨fun _ => 2, by simp [leafRows], key _ (by decide +kernel)⟩
  exact ⟨hcov, hoff, by decide +kernel, by decide +kernel, C127_notoptimized twoClasses_wf twoClasses_totals (by simp [leafRows]) hcov (Or.inl rfl)
    (Or.inl rfl) (fun t ht => hoff t ht _ (by simp [leafRows])) hoff (by norm_num)⟩

end Acv
