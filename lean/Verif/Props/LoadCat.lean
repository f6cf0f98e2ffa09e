import Verif.Lemmas.LoadCat
import Mathlib.Algebra.BigOperators.Intervals
import Mathlib.Algebra.BigOperators.Fin

/-!
# C42: CatBoost trees
-/

namespace Acv

/-- A model without categorical features in which missing values are below every border (`nan_mode` `Min`, the default). -/
def exFeatures : CbFeatures := ⟨id, id, fun _ => false, fun _ _ => 0⟩

/-- Two splits and four leaves. -/
def exSplits : List CbSplit := [.float 0 1, .float 1 3]

/-- **C42, structure.** An oblivious tree with `2 ** depth` leaf values becomes a well-formed tree with `2 ** (depth + 1) - 1` nodes. -/
theorem C42_structure {splits : List CbSplit} {values : List ℚ} (weights : List ℚ) (hv : values.length = 2 ^ splits.length) {d : Nat}
    (hd : ∀ s ∈ splits, s.feature < d) :
    WellFormed (cbLoad splits values weights) d ∧ (cbLoad splits values weights).size = 2 ^ (splits.length + 1) - 1 := by
  refine ⟨⟨_, cbLoad_isTree hv hd⟩, ?_⟩
  show (cbPadded values).length = _
  rw [cbPadded_length, hv, pow_succ]
  have : 0 < 2 ^ splits.length := Nat.pow_pos (by decide)
  omega

example : ([10, 20, 30, 40] : List ℚ).length = 2 ^ exSplits.length ∧ ∀ s ∈ exSplits, s.feature < 2 := by decide

/-- The claim of C42: the loaded tree ends, for every observation, in the leaf whose index is given by the split bits, with its value and
weight. -/
def C42_claim (F : CbFeatures) (splits : List CbSplit) : Prop :=
  ∀ (values weights : List ℚ) (x : Obs), values.length = 2 ^ splits.length → weights.length = 2 ^ splits.length →
    ∃ ℓ, (cbLoad splits values weights).leafOf x = some ℓ ∧ (∀ k, (cbLoad splits values weights).value ℓ k = cbPredict F x splits values) ∧
      (cbLoad splits values weights).weight ℓ = weights.getD (cbIndex F x splits) 0

theorem cbIndex_lt (F : CbFeatures) (x : Obs) : ∀ (l : List CbSplit), cbIndex F x l < 2 ^ l.length := by
  intro l
  induction l with
  | nil => simp [cbIndex]
  | cons s l ih =>
    rw [cbIndex, List.length_cons, pow_succ]
    have := Bool.toNat_le (cbPasses F x s)
    omega

theorem cbWeights_leaf {weights : List ℚ} (j : Nat) (h2 : 2 ≤ weights.length ∨ (weights.length = 1 ∧ j = 0)) :
    (cbWeights weights).getD (weights.length - 1 + j) 0 = weights.getD j 0 := by
  unfold cbWeights
  rcases h2 with h | ⟨h, rfl⟩
  · rw [cbSumUp_keep _ _ _ (by omega), List.getD_eq_getElem?_getD, List.getElem?_set_ne (by omega), ← List.getD_eq_getElem?_getD,
      cbPadded_leaf]
  · obtain ⟨w, rfl⟩ := List.length_eq_one_iff.1 h
    simp [cbSumUp, cbPadded]

/-- **C42 (partial).** For numeric splits, when `float_feature_index` is the column and missing values are below every border, the loaded
tree ends in the leaf whose index has the results of the splits as its bits, with its value and weight. Missing: models with categorical
features (`C42_columns_false`, `C42_one_hot_false`), missing values above every border (`C42_nan_false`), and several outputs per leaf. -/
theorem C42_partial {F : CbFeatures} {splits : List CbSplit} {values weights : List ℚ} {x : Obs} (hv : values.length = 2 ^ splits.length)
    (hw : weights.length = 2 ^ splits.length) (hx : CbPlain F x splits) :
    ∃ ℓ, (cbLoad splits values weights).leafOf x = some ℓ ∧ (∀ k, (cbLoad splits values weights).value ℓ k = cbPredict F x splits values) ∧
      (cbLoad splits values weights).weight ℓ = weights.getD (cbIndex F x splits) 0 := by
  obtain ⟨d, hd⟩ : ∃ d, ∀ s ∈ splits, s.feature < d := by
    clear * -
    induction splits with
    | nil => exact ⟨0, by simp⟩
    | cons s l ih =>
      obtain ⟨d, hd⟩ := ih
      refine ⟨max d (s.feature + 1), fun s' hs => ?_⟩
      rcases List.mem_cons.1 hs with rfl | hs
      · omega
      · have := hd s' hs; omega
  have ht := cbLoad_isTree (weights := weights) hv hd
  have hpl : CbPlain F x splits.reverse := fun s hs => hx s (List.mem_reverse.1 hs)
  have hdesc := heapTree_descend splits.reverse 0 ht.enc (fun i => (cbLoad_children splits values weights i).2.2) hpl
  rw [msbIndex_reverse, List.length_reverse] at hdesc
  have hlt := cbIndex_lt F x splits
  have hpos : 0 < 2 ^ splits.length := Nat.pow_pos (by decide)
  have he : (heapTree splits.reverse 0).descendObs (cbLoad splits values weights) x = 2 ^ splits.length - 1 + cbIndex F x splits := by
    simp only [Nat.zero_add, Nat.one_mul] at hdesc
    omega
  refine ⟨_, leafOf_obs ht x, ?_, ?_⟩
  · intro k
    rw [he, ← hv]
    exact cbPadded_leaf _
  · rw [he]
    show (cbWeights weights).getD _ 0 = _
    rw [← hw, cbWeights_leaf]
    rcases Nat.lt_or_ge 1 weights.length with h | h
    · left; omega
    · right; constructor <;> omega

example : CbPlain exFeatures (fun _ => some 2) exSplits ∧ cbIndex exFeatures (fun _ => some 2) exSplits = 1 ∧
    (cbLoad exSplits [10, 20, 30, 40] [1, 2, 3, 4]).leafOf (fun _ => some 2) = some 4 := by
  refine ⟨?_, by decide +kernel, by decide +kernel⟩
  intro s hs
  rcases List.mem_cons.1 hs with rfl | hs
  · exact ⟨0, 1, rfl, rfl, fun _ => rfl⟩
  · rw [List.mem_singleton.1 hs]; exact ⟨1, 3, rfl, rfl, fun _ => rfl⟩

theorem sum_pairs (f : Nat → ℚ) : ∀ n, ∑ j ∈ Finset.range n, (f (2 * j) + f (2 * j + 1)) = ∑ j ∈ Finset.range (2 * n), f j := by
  intro n
  induction n with
  | zero => simp
  | succ n ih =>
    have e : 2 * (n + 1) = 2 * n + 1 + 1 := by omega
    rw [Finset.sum_range_succ, ih, e, Finset.sum_range_succ, Finset.sum_range_succ]
    ring

theorem cbWeights_sum {weights : List ℚ} {D : Nat} (hw : weights.length = 2 ^ D) {i : Nat} (h1 : 1 ≤ i) (h2 : i < weights.length - 1) :
    (cbWeights weights).getD i 0 = (cbWeights weights).getD (2 * i + 1) 0 + (cbWeights weights).getD (2 * i + 2) 0 :=
  cbSumUp_sum _ _ _ h1 (by omega) (by rw [List.length_set, cbPadded_length]; omega)

theorem sum_getD (l : List ℚ) : ∑ j ∈ Finset.range l.length, l.getD j 0 = l.sum := by
  induction l with
  | nil => simp
  | cons a l ih =>
    rw [List.length_cons, Finset.sum_range_succ', List.sum_cons, ← ih, add_comm]
    simp

/-- **C42, weights.** The weight of every node with children is the sum of the weights of its children, and the weight of the root is the sum
of all leaf weights. -/
theorem C42_weights {splits : List CbSplit} {values weights : List ℚ} (hv : values.length = 2 ^ splits.length)
    (hw : weights.length = 2 ^ splits.length) :
    (∀ i l r : Nat, (cbLoad splits values weights).left i = l → (cbLoad splits values weights).right i = r →
      (cbLoad splits values weights).weight i = (cbLoad splits values weights).weight l + (cbLoad splits values weights).weight r) ∧
    (cbLoad splits values weights).weight 0 = weights.sum := by
  have hroot : (cbWeights weights).getD 0 0 = weights.sum := by
    unfold cbWeights
    rw [cbSumUp_keep _ _ _ (Or.inl rfl), List.getD_eq_getElem?_getD, List.getElem?_set_self]
    · rfl
    · rw [cbPadded_length]
      have : 0 < 2 ^ splits.length := Nat.pow_pos (by decide)
      omega
  refine ⟨?_, hroot⟩
  intro i l r hl hr
  obtain ⟨e1, e2, -⟩ := cbLoad_children splits values weights i
  rw [e1] at hl
  rw [e2] at hr
  by_cases hi : i < values.length - 1
  · rw [if_pos hi] at hl hr
    have hl' : l = 2 * i + 1 := by exact_mod_cast hl.symm
    have hr' : r = 2 * i + 2 := by exact_mod_cast hr.symm
    subst hl' hr'
    show (cbWeights weights).getD i 0 = (cbWeights weights).getD _ 0 + (cbWeights weights).getD _ 0
    rcases Nat.eq_zero_or_pos i with rfl | hpos
    · rw [hroot]
      generalize splits.length = D at hv hw
      have level : ∀ k, 1 ≤ k → k ≤ D → ∑ j ∈ Finset.range (2 ^ k), (cbWeights weights).getD (2 ^ k - 1 + j) 0 =
          (cbWeights weights).getD 1 0 + (cbWeights weights).getD 2 0 := by
        intro k hk
        induction k, hk using Nat.le_induction with
        | base => intro _; simp [Finset.sum_range_succ]
        | succ k hk ih =>
          intro hkD
          rw [← ih (by omega)]
          have e : 2 ^ (k + 1) = 2 * 2 ^ k := by rw [pow_succ]; ring
          rw [e, ← sum_pairs]
          apply Finset.sum_congr rfl
          intro j hj
          rw [Finset.mem_range] at hj
          have hp : 0 < 2 ^ k := Nat.pow_pos (by decide)
          have hk2 : 2 ^ 1 ≤ 2 ^ k := Nat.pow_le_pow_right (by decide) hk
          have hkD' : 2 ^ (k + 1) ≤ 2 ^ D := Nat.pow_le_pow_right (by decide) hkD
          rw [cbWeights_sum hw (i := 2 ^ k - 1 + j) (by omega) (by omega)]
          congr 2 <;> omega
      have hD : 1 ≤ D := by
        by_contra hc
        have : D = 0 := by omega
        subst this
        simp [hv] at hi
      rw [← level D hD (le_refl D), ← sum_getD, hw]
      apply Finset.sum_congr rfl
      intro j _
      rw [← hw, cbWeights_leaf]
      have hk2 : 2 ^ 1 ≤ 2 ^ D := Nat.pow_le_pow_right (by decide) hD
      left; omega
    · exact cbWeights_sum hw hpos (by omega)
  · rw [if_neg hi] at hl
    omega

example : (cbLoad exSplits [10, 20, 30, 40] [1, 2, 3, 4]).weight 2 = 7 ∧ (cbLoad exSplits [10, 20, 30, 40] [1, 2, 3, 4]).weight 0 = 10 := by
  decide +kernel

theorem C42_refute {F : CbFeatures} {splits : List CbSplit} (values : List ℚ) (x : Obs) {ℓ : Nat} (hv : values.length = 2 ^ splits.length)
    (hl : (cbLoad splits values values).leafOf x = some ℓ) (hne : (cbLoad splits values values).value ℓ 0 ≠ cbPredict F x splits values) :
    ¬ C42_claim F splits := by
  intro h
  obtain ⟨ℓ', h1, h2, -⟩ := h values values x hv hv
  rw [hl] at h1
  have := Option.some.inj h1
  subst this
  exact hne (h2 0)

/-- **C42 is false when a categorical column comes first.** The float feature 0 is then the column 1, but the loaded tree tests column 0. -/
theorem C42_columns_false : ¬ C42_claim { exFeatures with floatColumn := fun k => k + 1 } [.float 0 1] :=
  C42_refute [10, 20] (fun j => some (2 * j)) (ℓ := 1) rfl (by decide +kernel) (by decide +kernel)

/-- **C42 is false for one-hot splits.** `x == 3` is loaded as `x > 3`. -/
theorem C42_one_hot_false : ¬ C42_claim exFeatures [.oneHot 0 3] :=
  C42_refute [10, 20] (fun _ => some 3) (ℓ := 1) rfl (by decide +kernel) (by decide +kernel)

/-- **C42 is false for missing values above every border** (`nan_mode` `Max`): the loaded tree sends them left. -/
theorem C42_nan_false : ¬ C42_claim { exFeatures with nanPasses := fun _ => true } [.float 0 1] :=
  C42_refute [10, 20] (fun _ => none) (ℓ := 1) rfl (by decide +kernel) (by decide +kernel)

end Acv
