import Verif.Props.TreeSdp
import Verif.Props.Shapley

/-!
# C120: models with the same predictions

What an explanation may depend on besides the predictions of the model: nothing for `compute_exp_cat` and for the sum of the Shapley values, the shape of
the trees for the other estimators.
-/

namespace Acv

/-- The two ensembles predict the same output `k` for every row without missing values. -/
def SamePredictions (ts ts' : List TreeArr) (base : Nat → ℚ) (k : Nat) : Prop :=
  ∀ z : Row, ensemblePredict ts' none none base (full z) k = ensemblePredict ts none none base (full z) k

/-- An ensemble of well-formed trees always predicts. -/
theorem predicts {ts : List TreeArr} {m : Nat} (hw : ∀ t ∈ ts, WellFormed t m) (base : Nat → ℚ) (k : Nat) :
    ∃ P : Row → ℚ, ∀ z, ensemblePredict ts none none base (full z) k = some (P z) := by
  have h : ∀ z : Row, ∃ p, ensemblePredict ts none none base (full z) k = some p := by
    intro z
    have hc := C03_predict_is_sum_of_leaf_values hw none none base (full z) k
    classical
    have hex : ∀ t ∈ ts, ∃ ℓ, EndsIn t (full z) ℓ := fun t ht => (hc.1 t ht).exists
    exact ⟨_, hc.2 (fun t => if ht : t ∈ ts then (hex t ht).choose else 0) fun t ht => by
      simp only [dif_pos ht]; exact (hex t ht).choose_spec⟩
  exact ⟨fun z => (h z).choose, fun z => (h z).choose_spec⟩

/-- **C120, `compute_exp_cat`**: two models with the same predictions have the same conditional expectations, whatever their trees. -/
theorem C120_cat {ts ts' : List TreeArr} {m m' : Nat} (hw : ∀ t ∈ ts, WellFormed t m) (hw' : ∀ t ∈ ts', WellFormed t m') {base : Nat → ℚ} {k : Nat}
    (h : SamePredictions ts ts' base k) (data : List Row) {S : List Nat} (hS : ∀ s ∈ S, s < m) (hS' : ∀ s ∈ S, s < m') (x : Row) :
    expCatCy ts' m' data S x k = expCatCy ts m data S x k := by
  obtain ⟨P, hP⟩ := predicts hw base k
  have hP' : ∀ z, ensemblePredict ts' none none base (full z) k = some (P z) := fun z => (h z).trans (hP z)
  obtain ⟨h1, h2⟩ := C20_cat_is_conditional_mean hw data hS x k base P hP
  obtain ⟨h3, h4⟩ := C20_cat_is_conditional_mean hw' data hS' x k base P hP'
  by_cases hm : matching S x data = []
  · rw [h2 hm, h4 hm]
  · rw [h1 hm, h3 hm]

/-- **C120, the sum of the Shapley values**: it is the same, whatever the trees and the coalitions, if the leaves of the observation hold rows of the
background. -/
theorem C120_total {ts ts' : List TreeArr} {m m' : Nat} (hw : ∀ t ∈ ts, WellFormed t m) (hw' : ∀ t ∈ ts', WellFormed t m') {base : Nat → ℚ} {k : Nat}
    (h : SamePredictions ts ts' base k) {data : List Row} (hd : data ≠ []) (hm : m < ulongMax) (hm' : m' < ulongMax) (x : Row)
    (hleaf : ∀ t ∈ ts, ∀ ℓ, EndsIn t (full x) ℓ → ∃ z ∈ data, EndsIn t (full z) ℓ)
    (hleaf' : ∀ t ∈ ts', ∀ ℓ, EndsIn t (full x) ℓ → ∃ z ∈ data, EndsIn t (full z) ℓ) :
    ∑ j ∈ Finset.range m', shapCy ts' m' data [[]] x j k = ∑ j ∈ Finset.range m, shapCy ts m data [[]] x j k := by
  obtain ⟨P, hP⟩ := predicts hw base k
  rw [C07_efficiency_columns hw hd hm x k base P hP hleaf,
    C07_efficiency_columns hw' hd hm' x k base P (fun z => (h z).trans (hP z)) hleaf']

/-! ## The other estimators -/

/-- 30 if columns 0 and 1 are above 1, 10 otherwise; column `a` is tested first, column `b` second. -/
def bothAbove (a b : Nat) : TreeArr :=
  { exTree with
    feature := fun n => ([(a : Int), -2, (b : Int), -2, -2] : List Int).getD n (-2)
    threshold := fun n => ([1, -2, 1, -2, -2] : List ℚ).getD n (-2)
    value := fun n _ => ([0, 10, 0, 10, 30] : List ℚ).getD n 0 }

theorem bothAbove_isTree {a b : Nat} (ha : a < 2) (hb : b < 2) : IsTree (bothAbove a b) 2 (.node 0 a 1 (.leaf 1) (.node 2 b 1 (.leaf 3) (.leaf 4))) where
  root := rfl
  enc := by simp [Encodes, bothAbove, exTree, BTree.id]
  nodup := by simp [BTree.ids]
  all := by
    intro n
    simp only [BTree.ids, bothAbove, exTree, List.mem_cons, List.mem_append, List.not_mem_nil, or_false]
    omega
  vars := by
    simp [BTree.vars]
    omega

theorem bothAbove_predict {a b : Nat} (ha : a < 2) (hb : b < 2) (z : Row) : ensemblePredict [bothAbove a b] none none (fun _ => 0) (full z) 0 =
    some (if 1 < z a ∧ 1 < z b then 30 else 10) := by
  have h := (C03_predict_is_sum_of_leaf_values (ts := [bothAbove a b]) (d := 2)
    (by intro t ht; rw [List.mem_singleton.mp ht]; exact ⟨_, bothAbove_isTree ha hb⟩) none none (fun _ => 0)
    (full z) 0).2 (fun _ => (BTree.node 0 a 1 (.leaf 1) (.node 2 b 1 (.leaf 3) (.leaf 4))).descend z) (by
      intro t ht
      rw [List.mem_singleton.mp ht, endsIn_iff (bothAbove_isTree ha hb), descendObs_full])
  rw [h]
  have h2 : effLimit [bothAbove a b].length none none = 1 := by rw [C03_tree_limit]; rfl
  rw [h2]
  simp only [List.take_succ_cons, List.take_zero, List.map_cons, List.map_nil, List.sum_cons, List.sum_nil, BTree.descend]
  by_cases h0 : z a ≤ 1
  · simp [h0, bothAbove, not_lt.2 h0]
  · by_cases h1 : z b ≤ 1 <;> simp [h0, h1, bothAbove, not_lt, not_le.1 h0]

/-- Rows off the thresholds. -/
def cornerRows : List Row := [fun _ => 0, fun j => if j = 0 then 2 else 0, fun j => if j = 0 then 0 else 2, fun _ => 2, fun _ => 2]

/-- The claim of C120 for an estimator. -/
def C120_claim (f : List TreeArr → List Row → Row → ℚ) : Prop := ∀ (ts ts' : List TreeArr), (∀ t ∈ ts, WellFormed t 2) → (∀ t ∈ ts', WellFormed t 2) →
  SamePredictions ts ts' (fun _ => 0) 0 → ∀ (data : List Row) (x : Row), f ts' data x = f ts data x

/-- **C120 is false of the leaf estimators** `compute_exp`, its normalised version and the Shapley values: the order of the tests in the tree matters. -/
theorem C120_false : ¬ C120_claim (fun ts data x => expCy ts 2 data [0] x 0) ∧
    ¬ C120_claim (fun ts data x => (expPy ts 2 data [0] x 0).toOption.getD 0) ∧
    ¬ C120_claim (fun ts data x => shapCy ts 2 data [[]] x 0 0) := by
  have hw : ∀ a b : Nat, a < 2 → b < 2 → ∀ t ∈ [bothAbove a b], WellFormed t 2 := by
    intro a b ha hb t ht
    rw [List.mem_singleton.mp ht]
    exact ⟨_, bothAbove_isTree ha hb⟩
  have hs : SamePredictions [bothAbove 0 1] [bothAbove 1 0] (fun _ => 0) 0 := by
    intro z
    rw [bothAbove_predict (by norm_num) (by norm_num), bothAbove_predict (by norm_num) (by norm_num)]
    simp only [and_comm]
  refine ⟨fun h => ?_, fun h => ?_, fun h => ?_⟩
  all_goals
    have := h _ _ (hw 0 1 (by norm_num) (by norm_num)) (hw 1 0 (by norm_num) (by norm_num)) hs cornerRows (fun _ => 2)
    revert this
    decide +kernel

/-- The hypotheses of `C120_cat` and `C120_total` on the same two trees. -/
example : SamePredictions [bothAbove 0 1] [bothAbove 1 0] (fun _ => 0) 0 ∧
    expCatCy [bothAbove 1 0] 2 cornerRows [0] (fun _ => 2) 0 = 70 / 3 ∧
    (∀ t ∈ [bothAbove 0 1], ∀ ℓ, EndsIn t (full fun _ => 2) ℓ → ∃ z ∈ cornerRows, EndsIn t (full z) ℓ) := by
  refine ⟨fun z => ?_, by decide +kernel, fun t _ ℓ h => ⟨fun _ => 2, by simp [cornerRows], h⟩⟩
  rw [bothAbove_predict (by norm_num) (by norm_num), bothAbove_predict (by norm_num) (by norm_num)]
  simp only [and_comm]

end Acv
