import Verif.Props.QuantileRf
import Verif.Props.Quantile
import Verif.Props.Projected
import Verif.Props.Shapley
import Verif.Model.Biased
import Verif.Model.TreeSdp
import Mathlib.Order.Monotone.Basic

/-!
# C129: the units of the output

The outputs of the training data, the prediction to explain and the interval around it in other units, for example a price in cents instead of euros.
-/

namespace Acv

theorem sameDec_units {ψ : ℚ → ℚ} (hψ : StrictMono ψ) (classifier : Bool) (yx : ℚ) (t : ℚ × ℚ) (y : ℚ) :
    sameDec classifier (ψ yx) (ψ t.1, ψ t.2) (ψ y) = sameDec classifier yx t y := by
  unfold sameDec
  simp only [hψ.injective.eq_iff, hψ.le_iff_le]

/-- **C129, probabilities and rules.** For every increasing conversion of the outputs, same-decision and different-decision probabilities, the sufficient rule
and the distribution function at a converted value are unchanged. -/
theorem C129_sdp {ψ : ℚ → ℚ} (hψ : StrictMono ψ) (mems : List Mem) (S : List Nat) (x : Row) (yx : ℚ) (data : Nat → Row) (y : Nat → ℚ)
    (minSize maxDepth N : Nat) (classifier : Bool) (t : ℚ × ℚ) :
    sdpRf mems S x (ψ yx) data (fun i => ψ (y i)) minSize maxDepth N classifier (ψ t.1, ψ t.2) = sdpRf mems S x yx data y minSize maxDepth N classifier t ∧
    ddpRf mems S x (ψ yx) data (fun i => ψ (y i)) minSize maxDepth N classifier (ψ t.1, ψ t.2) = ddpRf mems S x yx data y minSize maxDepth N classifier t ∧
    sdpRule mems S x (ψ yx) data (fun i => ψ (y i)) minSize maxDepth N classifier (ψ t.1, ψ t.2) =
      sdpRule mems S x yx data y minSize maxDepth N classifier t ∧
    ∀ a, cdfRf mems S x data (fun i => ψ (y i)) minSize maxDepth N (ψ a) = cdfRf mems S x data y minSize maxDepth N a := by
  refine ⟨?_, ?_, ?_, fun a => ?_⟩
  · unfold sdpRf
    simp only [sameDec_units hψ]
  · unfold ddpRf
    simp only [ne_eq, hψ.injective.eq_iff, hψ.le_iff_le]
  · unfold sdpRule
    simp only [sameDec_units hψ]
  · unfold cdfRf
    simp only [hψ.le_iff_le]

/-- **C129, names of the classes.** For a classifier any renaming of the classes will do. -/
theorem C129_classes {ψ : ℚ → ℚ} (hψ : Function.Injective ψ) (mems : List Mem) (S : List Nat) (x : Row) (yx : ℚ) (data : Nat → Row) (y : Nat → ℚ)
    (minSize maxDepth N : Nat) (t t' : ℚ × ℚ) :
    sdpRf mems S x (ψ yx) data (fun i => ψ (y i)) minSize maxDepth N true t' = sdpRf mems S x yx data y minSize maxDepth N true t ∧
    sdpRule mems S x (ψ yx) data (fun i => ψ (y i)) minSize maxDepth N true t' = sdpRule mems S x yx data y minSize maxDepth N true t := by
  have h : ∀ v, sameDec true (ψ yx) t' (ψ v) = sameDec true yx t v := by
    intro v
    unfold sameDec
    simp only [hψ.eq_iff, if_true]
  constructor
  · unfold sdpRf
    simp only [h]
  · unfold sdpRule
    simp only [h]

/-- **C129, minimal explanations.** The search for minimal sufficient explanations returns the same for every increasing conversion of the outputs. -/
theorem C129_search {ψ : ℚ → ℚ} (hψ : StrictMono ψ) (mems : List Mem) (X : Nat → Row) (yX : Nat → ℚ) (data : Nat → Row) (y : Nat → ℚ)
    (minSize maxDepth M : Nat) (classifier : Bool) (t : Nat → ℚ × ℚ) (N cols : Nat) (order : List Nat) (C : List (List Nat)) (pi : ℚ) (minimal : Nat)
    (stop : Bool) (half : Nat) :
    importanceSdpRf (fun i S => sdpRf mems S (X i) (ψ (yX i)) data (fun j => ψ (y j)) minSize maxDepth M classifier (ψ (t i).1, ψ (t i).2)) N cols order C pi
      minimal stop half =
    importanceSdpRf (fun i S => sdpRf mems S (X i) (yX i) data y minSize maxDepth M classifier (t i)) N cols order C pi minimal stop half := by
  congr 1
  funext i S
  exact (C129_sdp hψ mems S (X i) (yX i) data y minSize maxDepth M classifier (t i)).1

/-- **C129, first versions.** With the squared distance as test, `a y + b` goes with `a ^ 2 t`. -/
theorem C129_v0 {a : ℚ} (ha : a ≠ 0) (b : ℚ) (mems : List Mem) (S : List Nat) (x : Row) (yx : ℚ) (data : Nat → Row) (y : Nat → ℚ)
    (minSize maxDepth N : Nat) (classifier : Bool) (t : ℚ) :
    sdpRfV0 mems S x (a * yx + b) data (fun i => a * y i + b) minSize maxDepth N classifier (a ^ 2 * t) = sdpRfV0 mems S x yx data y minSize maxDepth N classifier t ∧
    sdpRuleV0 mems S x (a * yx + b) data (fun i => a * y i + b) minSize maxDepth N classifier (a ^ 2 * t) =
      sdpRuleV0 mems S x yx data y minSize maxDepth N classifier t := by
  have h : ∀ v, sameDecV0 classifier (a * yx + b) (a ^ 2 * t) (a * v + b) = sameDecV0 classifier yx t v := by
    intro v
    unfold sameDecV0
    have h1 : a * yx + b = a * v + b ↔ yx = v := by
      rw [add_left_inj, mul_right_inj' ha]
    have h2 : (a * yx + b - (a * v + b)) * (a * yx + b - (a * v + b)) = a ^ 2 * ((yx - v) * (yx - v)) := by ring
    simp only [h1, h2, mul_le_mul_iff_right₀ (pow_pos (abs_pos.2 ha) 2 |>.trans_eq (sq_abs a))]
  constructor
  · unfold sdpRfV0
    simp only [h]
  · unfold sdpRuleV0
    simp only [h]

/-- **C129, expectation.** `compute_exp_rf` of `a y + b` is `a` times the old result plus `b`, if no tree has an empty cell. -/
theorem C129_exp (a b : ℚ) {mems : List Mem} (hne : mems ≠ []) {S : List Nat} {x : Row} {data : Nat → Row} (y : Nat → ℚ)
    {minSize maxDepth N : Nat} (hc : ∀ c ∈ cellsSet mems S x data minSize maxDepth N, c ≠ []) :
    expRf mems S x data (fun i => a * y i + b) minSize maxDepth N = a * expRf mems S x data y minSize maxDepth N + b := by
  have hone : cellSum (cellsSet mems S x data minSize maxDepth N) (fun _ => 1) = 1 := by
    rw [cellSum_one]
    refine liveFrac_eq_one ?_ hc
    intro h0
    have := congrArg List.length h0
    unfold cellsSet at this
    rw [forestRun_length] at this
    exact hne (List.length_eq_zero_iff.mp this)
  unfold expRf
  have hb := cellSum_mul (cellsSet mems S x data minSize maxDepth N) (fun _ => 1) b
  rw [hone, mul_one] at hb
  rw [cellSum_add, cellSum_mul, hb]

/-! ## Quantiles -/

theorem sortSamples_units {ψ : ℚ → ℚ} (hψ : StrictMono ψ) (l : List (ℚ × ℚ)) :
    sortSamples (l.map fun s => (ψ s.1, s.2)) = (sortSamples l).map fun s => (ψ s.1, s.2) := by
  have hins : ∀ (a : ℚ × ℚ) (l : List (ℚ × ℚ)), (l.map fun s => (ψ s.1, s.2)).orderedInsert (fun a b => a.1 ≤ b.1) (ψ a.1, a.2) =
      (l.orderedInsert (fun a b => a.1 ≤ b.1) a).map fun s => (ψ s.1, s.2) := by
    intro a l
    induction l with
    | nil => rfl
    | cons b l ih =>
      rw [List.map_cons, List.orderedInsert_cons, List.orderedInsert_cons]
      simp only [hψ.le_iff_le]
      split
      · rfl
      · rw [List.map_cons, ih]
  induction l with
  | nil => rfl
  | cons a l ih =>
    unfold sortSamples at ih ⊢
    rw [List.map_cons, List.insertionSort_cons, List.insertionSort_cons, ih, hins]

theorem midpoints_units (ψ : ℚ → ℚ) : ∀ (l : List (ℚ × ℚ)) (acc : ℚ),
    midpoints acc (l.map fun s => (ψ s.1, s.2)) = (midpoints acc l).map fun p => (p.1, ψ p.2) := by
  intro l
  induction l with
  | nil => intro _; rfl
  | cons a l ih => intro acc; simp only [List.map_cons, midpoints, ih]

theorem partialSums_units (ψ : ℚ → ℚ) (l : List (ℚ × ℚ)) :
    partialSums (l.map fun s => (ψ s.1, s.2)) = (partialSums l).map fun p => (p.1, ψ p.2) := by
  unfold partialSums
  rw [midpoints_units, List.map_map, List.map_map, List.map_map]
  rfl

theorem interpolate_affine (a b : ℚ) {pts : List (ℚ × ℚ)} (hne : pts ≠ []) (q : ℚ) :
    interpolate (pts.map fun p => (p.1, a * p.2 + b)) q = a * interpolate pts q + b := by
  have hk : ((pts.map fun p => (p.1, a * p.2 + b)).filter fun p => decide (p.1 < q)).length = (pts.filter fun p => decide (p.1 < q)).length := by
    rw [List.filter_map, List.length_map]
    rfl
  have hl : 0 < pts.length := List.length_pos_of_ne_nil hne
  have hle : (pts.filter fun p => decide (p.1 < q)).length ≤ pts.length := List.length_filter_le _ _
  have hg : ∀ i, i < pts.length → (pts.map fun p => (p.1, a * p.2 + b)).getD i (0, 0) = ((pts.getD i (0, 0)).1, a * (pts.getD i (0, 0)).2 + b) := by
    intro i hi
    simp [List.getD_eq_getElem?_getD, hi]
  unfold interpolate
  simp only [hk, List.length_map]
  split
  · rw [hg _ (by omega)]
  · split
    · rw [hg _ hl]
    · rw [hg _ (by omega), hg _ (by omega)]
      ring

/-- **C129, weighted percentile.** The percentile of `a v + b`, with `a > 0`, is `a` times the percentile plus `b`; errors are the same. -/
theorem C129_percentile {a : ℚ} (ha : 0 < a) (b : ℚ) (samples : List (ℚ × ℚ)) (q : ℚ) :
    weightedPercentile (samples.map fun s => (a * s.1 + b, s.2)) q = (weightedPercentile samples q).map fun v => a * v + b := by
  have hψ : StrictMono fun v : ℚ => a * v + b := fun u v h => by
    have := mul_lt_mul_of_pos_left h ha
    simpa using this
  have hf : (samples.map fun s => (a * s.1 + b, s.2)).filter (fun s => decide (s.2 ≠ 0)) =
      (samples.filter fun s => decide (s.2 ≠ 0)).map fun s => (a * s.1 + b, s.2) := by
    rw [List.filter_map]
    rfl
  unfold weightedPercentile
  split
  · rfl
  · simp only [hf, List.map_eq_nil_iff]
    split
    · rfl
    · next h =>
      have hs := sortSamples_units hψ (samples.filter fun s => decide (s.2 ≠ 0))
      have hp := partialSums_units (fun v => a * v + b) (sortSamples (samples.filter fun s => decide (s.2 ≠ 0)))
      rw [hs, hp, interpolate_affine]
      · rfl
      · exact partialSums_ne_nil (by
          intro hh
          have := (sortSamples_perm (samples.filter fun s => decide (s.2 ≠ 0))).length_eq
          rw [hh] at this
          exact h (List.length_eq_zero_iff.1 this.symm))

/-- **C129, quantiles of the projected forest**, in both implementations. -/
theorem C129_quantile {a : ℚ} (ha : 0 < a) (b : ℚ) (mems : List Mem) (S : List Nat) (x : Row) (data : Nat → Row) (y : Nat → ℚ)
    (minSize maxDepth N : Nat) (q : ℚ) :
    quantileRf mems S x data (fun i => a * y i + b) minSize maxDepth N q = (quantileRf mems S x data y minSize maxDepth N q).map (fun v => a * v + b) ∧
    shaffQuantile mems S x data (fun i => a * y i + b) minSize maxDepth N q = (shaffQuantile mems S x data y minSize maxDepth N q).map fun v => a * v + b := by
  have h : shaffQuantile mems S x data (fun i => a * y i + b) minSize maxDepth N q =
      (shaffQuantile mems S x data y minSize maxDepth N q).map fun v => a * v + b := by
    unfold shaffQuantile
    rw [C45_sorter, C45_sorter, ← C129_percentile ha, List.map_map]
    rfl
  exact ⟨by rw [C78_cython_is_python, C78_cython_is_python, h], h⟩

/-- **C129, quantiles of the differences**: they are multiplied by `a`, and `b` cancels. -/
theorem C129_quantile_diff {a : ℚ} (ha : 0 < a) (b : ℚ) (mems : List Mem) (S : List Nat) (x : Row) (yx : ℚ) (data : Nat → Row) (y : Nat → ℚ)
    (minSize maxDepth N : Nat) (q : ℚ) :
    quantileDiffRf mems S x (a * yx + b) data (fun i => a * y i + b) minSize maxDepth N q =
      (quantileDiffRf mems S x yx data y minSize maxDepth N q).map fun v => a * v := by
  have h : ∀ cells i, localDiff cells (a * yx + b) (fun i => a * y i + b) i = a * localDiff cells yx y i + 0 := by
    intro cells i
    unfold localDiff
    split <;> ring
  unfold quantileDiffRf
  simp only [h, C45_sorter]
  have := C129_percentile ha 0 ((List.range N).map fun i =>
    (localDiff (cellsVec mems S x data minSize maxDepth N) yx y i, shaffWeight (cellsVec mems S x data minSize maxDepth N) i)) q
  rw [List.map_map] at this
  simp only [add_zero] at this ⊢
  exact this

/-! ## Estimators that read the leaves -/

theorem guardDiv_mul (c a b : ℚ) : guardDiv (c * a) b = c * guardDiv a b := by
  unfold guardDiv
  split <;> ring

theorem guardDiv_cancel {c : ℚ} (hc : c ≠ 0) (a b : ℚ) : guardDiv (c * a) (c * b) = guardDiv a b := by
  unfold guardDiv
  by_cases hb : b = 0
  · simp [hb]
  · rw [if_pos (mul_ne_zero hc hb), if_pos hb, mul_div_mul_left _ _ hc]

theorem sumLeaves_scale (c : ℚ) (ts : List TreeArr) (k : Nat) {f : Rect → ℚ → ℚ} (hf : ∀ r v, f r (c * v) = c * f r v) :
    sumLeaves (ts.map (·.scale c)) k f = c * sumLeaves ts k f := by
  unfold sumLeaves
  rw [List.map_map, ← List.sum_map_mul_left]
  congr 1
  apply List.map_congr_left
  intro t _
  rw [← List.sum_map_mul_left]
  simp only [Function.comp]
  congr 1
  apply List.map_congr_left
  intro ℓ _
  have h1 : (t.scale c).leafRect ℓ = t.leafRect ℓ := by
    unfold TreeArr.leafRect; rw [getPartition_scale]; rfl
  rw [h1, ← hf]
  rfl

/-- **C129, expectations that read the leaves.** With all leaf values multiplied by `c`, `compute_exp` and `compute_exp_cat` are multiplied by `c`. -/
theorem C129_leaves (c : ℚ) (ts : List TreeArr) (m : Nat) (data : List Row) (S : List Nat) (x : Row) (k : Nat) :
    expCy (ts.map (·.scale c)) m data S x k = c * expCy ts m data S x k ∧ expCatCy (ts.map (·.scale c)) m data S x k = c * expCatCy ts m data S x k := by
  constructor
  · refine sumLeaves_scale c ts k fun r v => ?_
    split
    · rw [← guardDiv_mul]; congr 1; ring
    · ring
  · refine sumLeaves_scale c ts k fun r v => ?_
    split
    · rw [← guardDiv_mul]; congr 1; ring
    · ring

/-- **C129, same-decision probabilities of classifiers.** With all leaf values multiplied by `c ≠ 0`, and the same predicted classes, the probabilities do not
change. -/
theorem C129_clf {c : ℚ} (hc : c ≠ 0) (ts : List TreeArr) (m : Nat) (lab : Row → Nat) (data : List Row) (S : List Nat) (x : Row) :
    sdpClfPy (ts.map (·.scale c)) m lab data S x = sdpClfPy ts m lab data S x ∧ sdpClfCat (ts.map (·.scale c)) m lab data S x = sdpClfCat ts m lab data S x := by
  have hm : ∀ (S' : List Row → Rect → ℚ) (rows : List Row),
      (sumLeaves (ts.map (·.scale c)) (lab x) fun r v => if satCC r S x then guardDiv (cntCC rows r (List.range m) * v) (S' rows r) else 0) =
      c * sumLeaves ts (lab x) fun r v => if satCC r S x then guardDiv (cntCC rows r (List.range m) * v) (S' rows r) else 0 := by
    intro S' rows
    refine sumLeaves_scale c ts _ fun r v => ?_
    split
    · rw [← guardDiv_mul]; congr 1; ring
    · ring
  constructor
  · unfold sdpClfPy
    have h := hm fun rows r => cntCC rows r S
    simp only [h, ← mul_sub, guardDiv_cancel hc]
  · unfold sdpClfCat
    have h := hm fun rows _ => rows.length
    simp only [h, ← mul_sub, guardDiv_cancel hc]

/-- The hypotheses and values on small cases: a conversion from euros to cents, an increasing conversion, and a doubled model. -/
example : weightedPercentile [(1, 1), (3, 2), (2, 0)] 50 = .ok (7 / 3) ∧ weightedPercentile [(100, 1), (300, 2), (200, 0)] 50 = .ok (700 / 3) ∧
    (0 : ℚ) < 100 ∧ expCy [exTree] 3 exData [0] (fun _ => 2) 0 ≠ 0 ∧
    expCy [exTree.scale 2] 3 exData [0] (fun _ => 2) 0 = 2 * expCy [exTree] 3 exData [0] (fun _ => 2) 0 := by decide +kernel

/-! ## Other increasing conversions -/

/-- What C129 would ask of quantiles: that they follow every increasing conversion. -/
def C129_quantile_claim : Prop := ∀ ψ : ℚ → ℚ, StrictMono ψ → ∀ (samples : List (ℚ × ℚ)) (q : ℚ),
  weightedPercentile (samples.map fun s => (ψ s.1, s.2)) q = (weightedPercentile samples q).map ψ

/-- Values above 1 count double. -/
def stretch (v : ℚ) : ℚ := if v ≤ 1 then v else 2 * v - 1

/-- **C129 for quantiles and all increasing conversions is false**: the percentile is interpolated between two samples. -/
theorem C129_quantile_false : ¬ C129_quantile_claim := by
  intro h
  have hψ : StrictMono stretch := by
    intro u v huv
    unfold stretch
    split <;> split <;> linarith
  have := congrArg Except.toOption (h stretch hψ [(0, 1), (2, 1)] 50)
  revert this
  decide +kernel

end Acv
