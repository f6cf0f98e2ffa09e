import Verif.Model.InputCast
import Verif.Spec.InputCast
import Verif.Props.Rounded

/-!
# C106: predictions read the observations in single precision, explanations in double precision
-/

namespace Acv

theorem toSingle_relErr {q : ℚ} (hq : 0 ≤ q) : |toSingle q - q| ≤ 1 / 2 ^ 24 * |q| := by
  unfold toSingle
  rcases hq.eq_or_lt with rfl | hpos
  · simp
  · rw [if_neg (by linarith)]
    set e := Int.log 2 q
    have hs : (0 : ℚ) < 2 ^ (e - 23) := zpow_pos (by norm_num) _
    have hle : (2 : ℚ) ^ e ≤ q := by
      have := Int.zpow_log_le_self (b := 2) (by norm_num) hpos
      exact_mod_cast this
    have h1 := roundEven_near (q / 2 ^ (e - 23))
    have h2 : (roundEven (q / 2 ^ (e - 23)) : ℚ) * 2 ^ (e - 23) - q = ((roundEven (q / 2 ^ (e - 23)) : ℚ) - q / 2 ^ (e - 23)) * 2 ^ (e - 23) := by
      rw [sub_mul, div_mul_cancel₀ _ hs.ne']
    rw [h2, abs_mul, abs_of_pos hs, abs_of_pos hpos]
    have h3 : (2 : ℚ) ^ (e - 23) = 2 ^ e * (1 / 2 ^ 23) := by
      rw [zpow_sub₀ (by norm_num), div_eq_mul_one_div]
      norm_num
    rw [h3] at h1 hs ⊢
    nlinarith

theorem roundSingle_relErr : RelErr roundSingle (1 / 2 ^ 24) := by
  intro q
  unfold roundSingle
  split
  · have h := toSingle_relErr (q := -q) (by linarith)
    rw [abs_neg] at h
    have e1 : - toSingle (-q) - q = -(toSingle (-q) - -q) := by ring
    rw [e1, abs_neg]
    exact h
  · exact toSingle_relErr (by linarith)

theorem toSingle_form {q : ℚ} (hq : 0 < q) : ∃ n e : Int, toSingle q = n * 2 ^ e ∧ (2 : ℚ) ^ 23 * 2 ^ e ≤ q ∧ q < 2 ^ 24 * 2 ^ e ∧
    n = roundEven (q / 2 ^ e) := by
  refine ⟨roundEven (q / 2 ^ (Int.log 2 q - 23)), Int.log 2 q - 23, by unfold toSingle; rw [if_neg (by linarith)], ?_, ?_, rfl⟩
  · have h := Int.zpow_log_le_self (b := 2) (by norm_num) hq
    have e1 : (2 : ℚ) ^ 23 * 2 ^ (Int.log 2 q - 23) = 2 ^ Int.log 2 q := by
      rw [← zpow_natCast, ← zpow_add₀ (by norm_num)]
      congr 1
      push_cast
      ring
    rw [e1]
    exact_mod_cast h
  · have h := Int.lt_zpow_succ_log_self (b := 2) (by norm_num) q
    have e1 : (2 : ℚ) ^ 24 * 2 ^ (Int.log 2 q - 23) = 2 ^ (Int.log 2 q + 1) := by
      rw [← zpow_natCast, ← zpow_add₀ (by norm_num)]
      congr 1
      push_cast
      ring
    rw [e1]
    exact_mod_cast h

theorem toSingle_isSingle_nearest {q : ℚ} (hq : 0 ≤ q) : IsSingle (toSingle q) ∧ ∀ v, IsSingle v → |toSingle q - q| ≤ |v - q| := by
  rcases hq.eq_or_lt with rfl | hpos
  · refine ⟨⟨0, 0, by norm_num, by simp [toSingle]⟩, fun v _ => ?_⟩
    simp [toSingle]
  obtain ⟨n, e, he, h1, h2, hn⟩ := toSingle_form hpos
  have hs : (0 : ℚ) < 2 ^ e := zpow_pos (by norm_num) _
  have hz1 : (2 : ℚ) ^ 23 ≤ q / 2 ^ e := (le_div_iff₀ hs).mpr h1
  have hz2 : q / 2 ^ e < 2 ^ 24 := (div_lt_iff₀ hs).mpr h2
  obtain ⟨hnear, _⟩ := roundEven_nearest (q / 2 ^ e)
  have hint : ∀ k : Int, |toSingle q - q| ≤ |(k : ℚ) * 2 ^ e - q| := by
    intro k
    have ex : ∀ y : ℚ, y * 2 ^ e - q = (y - q / 2 ^ e) * 2 ^ e := fun y => by rw [sub_mul, div_mul_cancel₀ _ hs.ne']
    rw [he, ex, ex, abs_mul, abs_mul, hn]
    exact mul_le_mul_of_nonneg_right (hnear k) (abs_nonneg _)
  constructor
  · refine ⟨n, e, ?_, he⟩
    have ha := hnear (2 ^ 24)
    have hb := hnear (2 ^ 23)
    rw [← hn] at ha hb
    have hA : |(2 : ℚ) ^ 24 - q / 2 ^ e| = 2 ^ 24 - q / 2 ^ e := abs_of_nonneg (by linarith)
    have hB : |(2 : ℚ) ^ 23 - q / 2 ^ e| = q / 2 ^ e - 2 ^ 23 := by rw [abs_sub_comm, abs_of_nonneg (by linarith)]
    norm_num only at hA hB ha hb
    rw [hA] at ha
    rw [hB] at hb
    have hu := (abs_le.mp ha).2
    have hl := (abs_le.mp hb).1
    have h3 : (n : ℚ) ≤ 2 ^ 24 := by linarith
    have h4 : (2 : ℚ) ^ 23 ≤ n := by linarith
    have h3' : n ≤ 2 ^ 24 := by exact_mod_cast h3
    have h4' : (2 : Int) ^ 23 ≤ n := by exact_mod_cast h4
    rw [abs_of_nonneg (le_trans (by positivity) h4')]
    exact h3'
  · rintro v ⟨m, f, hm, rfl⟩
    by_cases hef : e ≤ f
    · obtain ⟨c, rfl⟩ := Int.le.dest hef
      have := hint (m * 2 ^ c)
      refine this.trans (le_of_eq ?_)
      push_cast
      rw [zpow_add₀ (by norm_num), zpow_natCast]
      congr 1
      ring
    · have hfe : f ≤ e - 1 := by omega
      have hv : (m : ℚ) * 2 ^ f ≤ 2 ^ 23 * 2 ^ e := by
        have hm' : (m : ℚ) ≤ 2 ^ 24 := by exact_mod_cast (le_abs_self m).trans hm
        have hp : (0 : ℚ) < 2 ^ f := zpow_pos (by norm_num) _
        have hmono : (2 : ℚ) ^ f ≤ 2 ^ (e - 1) := zpow_le_zpow_right₀ (by norm_num) hfe
        have e1 : (2 : ℚ) ^ (e - 1) = 2 ^ e / 2 := by rw [zpow_sub₀ (by norm_num)]; norm_num
        calc (m : ℚ) * 2 ^ f ≤ 2 ^ 24 * 2 ^ f := mul_le_mul_of_nonneg_right hm' hp.le
          _ ≤ 2 ^ 24 * 2 ^ (e - 1) := by gcongr
          _ = 2 ^ 23 * 2 ^ e := by rw [e1]; ring
      have := hint (2 ^ 23)
      push_cast at this
      refine this.trans ?_
      rw [abs_sub_comm, abs_of_nonneg (by linarith), abs_sub_comm, abs_of_nonneg (by linarith)]
      linarith

/-- **C106, the rounding is to nearest.** The rounded number has 24 significant bits, and no number with 24 significant bits is nearer. -/
theorem C106_nearest (q : ℚ) : IsSingle (roundSingle q) ∧ ∀ v, IsSingle v → |roundSingle q - q| ≤ |v - q| := by
  unfold roundSingle
  split
  · obtain ⟨⟨n, e, h1, h2⟩, h3⟩ := toSingle_isSingle_nearest (q := -q) (by linarith)
    refine ⟨⟨-n, e, by rwa [abs_neg], by rw [h2]; push_cast; ring⟩, ?_⟩
    rintro v ⟨m, f, hm, rfl⟩
    have := h3 (-(m * 2 ^ f)) ⟨-m, f, by rwa [abs_neg], by push_cast; ring⟩
    have e1 : ∀ a : ℚ, -a - -q = -(a - q) := fun a => by ring
    rw [e1, abs_neg] at this
    refine le_trans (le_of_eq ?_) this
    rw [← abs_neg]
    congr 1
    ring
  · exact toSingle_isSingle_nearest (by linarith)

theorem roundSingle_of_isSingle {q : ℚ} (h : IsSingle q) : roundSingle q = q := by
  have := (C106_nearest q).2 q h
  rw [sub_self, abs_zero] at this
  linarith [abs_eq_zero.mp (le_antisymm this (abs_nonneg _))]

theorem roundSingle_mono {p q : ℚ} (h : p ≤ q) : roundSingle p ≤ roundSingle q := by
  by_contra hlt
  push Not at hlt
  have h1 := (C106_nearest p).2 _ (C106_nearest q).1
  have h2 := (C106_nearest q).2 _ (C106_nearest p).1
  rcases h.eq_or_lt with rfl | h
  · exact absurd hlt (lt_irrefl _)
  have a1 : (roundSingle p + roundSingle q) / 2 ≤ p := by
    by_contra hc
    push Not at hc
    rcases abs_cases (roundSingle p - p) with ⟨e1, _⟩ | ⟨e1, _⟩ <;> rcases abs_cases (roundSingle q - p) with ⟨e2, _⟩ | ⟨e2, _⟩ <;>
      rw [e1, e2] at h1 <;> linarith
  have a2 : q ≤ (roundSingle p + roundSingle q) / 2 := by
    by_contra hc
    push Not at hc
    rcases abs_cases (roundSingle q - q) with ⟨e1, _⟩ | ⟨e1, _⟩ <;> rcases abs_cases (roundSingle p - q) with ⟨e2, _⟩ | ⟨e2, _⟩ <;>
      rw [e1, e2] at h2 <;> linarith
  linarith

/-- **C106, the cast.** Numbers of single precision are not changed, every number is changed by at most `2 ^ -24` of its size, and the order is kept (two
different numbers may become equal). -/
theorem C106_cast : (∀ q, IsSingle q → roundSingle q = q) ∧ (∀ q, |roundSingle q - q| ≤ 1 / 2 ^ 24 * |q|) ∧
    ∀ p q, p ≤ q → roundSingle p ≤ roundSingle q :=
  ⟨fun _ => roundSingle_of_isSingle, roundSingle_relErr, fun _ _ => roundSingle_mono⟩

example : roundSingle (1 / 10) = 13421773 / 134217728 ∧ roundSingle (-(2 ^ 24 + 1)) = -2 ^ 24 ∧ roundSingle (1 + 1 / 2 ^ 30) = 1 := by decide +kernel

/-- One decision is the same before and after the cast. -/
theorem castRow_step {t : TreeArr} {x : Row} {n m : Nat}
    (h : IsSingle (x (t.feature n).toNat) ∨ |x (t.feature n).toNat| / 2 ^ 24 < |x (t.feature n).toNat - t.threshold n|)
    (hs : StepTo t (full x) n m) : StepTo t (full (castRow x)) n m := by
  refine ⟨hs.1, ?_⟩
  have hs := hs.2
  simp only [full, castRow] at hs ⊢
  rcases h with h | h
  · rwa [roundSingle_of_isSingle h]
  · have hr := abs_le.mp (roundSingle_relErr (x (t.feature n).toNat))
    rcases hs with ⟨h1, h2⟩ | ⟨h1, h2⟩
    · rw [abs_of_nonpos (a := x _ - _) (by linarith)] at h
      exact Or.inl ⟨by linarith [hr.2], h2⟩
    · rw [abs_of_nonneg (a := x _ - _) (by linarith)] at h
      exact Or.inr ⟨by linarith [hr.1], h2⟩

theorem castRow_visits {t : TreeArr} {x : Row} {n k : Nat} (hv : Visits t (full x) n k)
    (h : ∀ m, Visits t (full x) n m → 0 ≤ t.left m →
      IsSingle (x (t.feature m).toNat) ∨ |x (t.feature m).toNat| / 2 ^ 24 < |x (t.feature m).toNat - t.threshold m|) :
    Visits t (full (castRow x)) n k := by
  induction hv with
  | refl n => exact .refl n
  | step hs _ ih => exact .step (castRow_step (h _ (.refl _) hs.1) hs) (ih fun m hm hl => h m (.step hs hm) hl)

/-- **C106, away from the splits.** If every split met by `x` tests a number of single precision, or a number further from the threshold than the rounding,
then the prediction uses the leaf whose rectangle contains `x`, for every tree, and `predict` returns what it would return without the cast. -/
theorem C106_same_leaf {ts : List TreeArr} {d : Nat} (hts : ∀ t ∈ ts, WellFormed t d) (x : Row) (hx : ∀ t ∈ ts, ClearOfSplits t x) :
    (∀ t ∈ ts, ∀ ℓ, EndsIn t (full (castRow x)) ℓ ↔ ℓ ∈ t.leafIdx ∧ InBox d (t.leafRect ℓ) x) ∧
    ∀ dl arg base k, predictCast ts dl arg base x k = ensemblePredict ts dl arg base (full x) k := by
  have hl : ∀ t ∈ ts, ∀ ℓ, EndsIn t (full x) ℓ → EndsIn t (full (castRow x)) ℓ := fun t ht ℓ h => ⟨castRow_visits h.1 (hx t ht), h.2⟩
  constructor
  · intro t ht ℓ
    obtain ⟨ℓ₀, h0, h1, h2, h3, h4⟩ := C01_leaf_rectangles_partition (hts t ht) x
    have h5 := hl t ht ℓ₀ h3
    constructor
    · intro h
      rw [Visits.leaf_unique h.1 h5.1 h.2 h5.2]
      exact ⟨h0, h1⟩
    · rintro ⟨h6, h7⟩
      rw [h2 ℓ h6 h7]
      exact h5
  · intro dl arg base k
    have h1 := (C03_predict_is_sum_of_leaf_values hts dl arg base (full x) k).2 (fun t => leafAt t x) fun t ht => leafAt_endsIn (hts t ht) x
    have h2 := (C03_predict_is_sum_of_leaf_values hts dl arg base (full (castRow x)) k).2 (fun t => leafAt t x)
      fun t ht => hl t ht _ (leafAt_endsIn (hts t ht) x)
    rw [h1, ← h2]
    rfl

/-- **C106, Shapley values.** If the observation and the background rows are clear of the splits, the Shapley values sum to the prediction that `predict`
returns (with the cast) minus its mean over the background rows. -/
theorem C106_efficiency {ts : List TreeArr} {m : Nat} (hts : ∀ t ∈ ts, WellFormed t m) {data : List Row} (hdata : data ≠ []) (hm : m < ulongMax)
    (x : Row) (k : Nat) (base : Nat → ℚ) (P : Row → ℚ) (hP : ∀ z, predictCast ts none none base z k = some (P z))
    (hx : ∀ t ∈ ts, ClearOfSplits t x) (hd : ∀ z ∈ data, ∀ t ∈ ts, ClearOfSplits t z)
    (hleaf : ∀ t ∈ ts, ∀ ℓ, EndsIn t (full x) ℓ → ∃ z ∈ data, EndsIn t (full z) ℓ) :
    ∑ j ∈ Finset.range m, shapCy ts m data [[]] x j k = P x - (data.map P).sum / data.length := by
  have hQ : ∀ z, ∃ q, ensemblePredict ts none none base (full z) k = some q := fun z =>
    ⟨_, (C03_predict_is_sum_of_leaf_values hts none none base (full z) k).2 (fun t => leafAt t z) fun t ht => leafAt_endsIn (hts t ht) z⟩
  choose Q hQ using hQ
  have hPQ : ∀ z, (∀ t ∈ ts, ClearOfSplits t z) → P z = Q z := fun z hz =>
    Option.some.inj (by rw [← hP, (C106_same_leaf hts z hz).2, hQ])
  rw [C07_efficiency_columns hts hdata hm x k base Q hQ hleaf, hPQ x hx, List.map_congr_left fun z hz => hPQ z (hd z hz)]

/-- **C106, the direction of the error.** If the thresholds are numbers of single precision, the cast can only turn a decision from right to left: an
observation that goes left without the cast goes left with it. -/
theorem C106_left {t : TreeArr} {x : Row} {n m : Nat} (hth : IsSingle (t.threshold n)) (hs : StepTo t (full x) n m)
    (hleft : x (t.feature n).toNat ≤ t.threshold n) : StepTo t (full (castRow x)) n m := by
  refine ⟨hs.1, ?_⟩
  have hs := hs.2
  simp only [full, castRow] at hs ⊢
  rcases hs with ⟨_, h2⟩ | ⟨h1, _⟩
  · exact Or.inl ⟨by have := roundSingle_mono hleft; rwa [roundSingle_of_isSingle hth] at this, h2⟩
  · linarith

/-- The full claim of C106: `predict` uses the leaves whose rectangles contain the observation. -/
def C106_leaf_claim : Prop :=
  ∀ (ts : List TreeArr) (d : Nat), (∀ t ∈ ts, WellFormed t d) → ∀ (x : Row) (base : Nat → ℚ) (k : Nat) (leaf : TreeArr → Nat),
    (∀ t ∈ ts, leaf t ∈ t.leafIdx ∧ InBox d (t.leafRect (leaf t)) x) →
    predictCast ts none none base x k = some (base k + (ts.map fun t => t.value (leaf t) k).sum)

/-- The full claim of C106 for the Shapley values. -/
def C106_efficiency_claim : Prop :=
  ∀ (ts : List TreeArr) (m : Nat), (∀ t ∈ ts, WellFormed t m) → ∀ (data : List Row) (x : Row) (k : Nat) (base : Nat → ℚ) (P : Row → ℚ),
    x ∈ data → m < ulongMax → (∀ z, predictCast ts none none base z k = some (P z)) →
    ∑ j ∈ Finset.range m, shapCy ts m data [[]] x j k = P x - (data.map P).sum / data.length

/-- An observation just above the threshold 1 of a stump. -/
def nearOne : Row := fun _ => 1 + 1 / 2 ^ 30

theorem stump_predictCast (z : Row) : predictCast [stumpAt 0 1 0 1] none none (fun _ => 0) z 0 = some (if roundSingle (z 0) ≤ 1 then 0 else 1) := by
  have hst : EndsIn (stumpAt 0 1 0 1) (full (castRow z)) (if castRow z 0 ≤ 1 then 1 else 2) := by
    refine (endsIn_iff (stumpAt_isTree (m := 1) (by norm_num) 1 0 1) _ _).mpr ?_
    simp [BTree.descendObs, full]
  have := (C03_predict_is_sum_of_leaf_values (d := 1) (ts := [stumpAt 0 1 0 1])
      (by simp [stumpAt_wf]) none none (fun _ => 0) (full (castRow z)) 0).2 (fun _ => if castRow z 0 ≤ 1 then 1 else 2) (by simp [hst])
  have h2 : predictCast [stumpAt 0 1 0 1] none none (fun _ => 0) z 0 = ensemblePredict [stumpAt 0 1 0 1] none none (fun _ => 0) (full (castRow z)) 0 := rfl
  rw [h2, this]
  by_cases hz : roundSingle (z 0) ≤ 1 <;> simp [effLimit, stumpAt, castRow, hz]

/-- **C106 is false of the code.** The observation `1 + 2 ^ -30` is right of the threshold 1, so its rectangle is that of the right leaf and its Shapley value
against the background rows `1 + 2 ^ -30` and `0` is 1/2; but `predict` reads it as 1 and returns the value 0 of the left leaf, for this row and for both
background rows, so the Shapley values do not sum to the difference 0. -/
theorem C106_false : ¬ C106_leaf_claim ∧ ¬ C106_efficiency_claim ∧
    (predictCast [stumpAt 0 1 0 1] none none (fun _ => 0) nearOne 0 = some 0 ∧
      EndsIn (stumpAt 0 1 0 1) (full nearOne) 2 ∧ (stumpAt 0 1 0 1).value 2 0 = 1 ∧
      ∑ j ∈ Finset.range 1, shapCy [stumpAt 0 1 0 1] 1 [nearOne, fun _ => 0] [[]] nearOne j 0 = 1 / 2) := by
  have h1 : predictCast [stumpAt 0 1 0 1] none none (fun _ => 0) nearOne 0 = some 0 := by decide +kernel
  have h2 : EndsIn (stumpAt 0 1 0 1) (full nearOne) 2 := by
    refine (endsIn_iff (stumpAt_isTree (m := 1) (by norm_num) 1 0 1) _ _).mpr ?_
    simp [BTree.descendObs, full, nearOne]
  have h3 : ∑ j ∈ Finset.range 1, shapCy [stumpAt 0 1 0 1] 1 [nearOne, fun _ => 0] [[]] nearOne j 0 = 1 / 2 := by decide +kernel
  refine ⟨fun h => ?_, fun h => ?_, h1, h2, rfl, h3⟩
  · obtain ⟨ℓ, h5, h6, h7, h8, _⟩ := C01_leaf_rectangles_partition (stumpAt_wf (m := 1) (c := 0) (by norm_num) 1 0 1) nearOne
    have hℓ : ℓ = 2 := Visits.leaf_unique h8.1 h2.1 h8.2 h2.2
    have := h [stumpAt 0 1 0 1] 1 (by simp [stumpAt_wf]) nearOne (fun _ => 0) 0 (fun _ => ℓ) (by simp [h5, h6])
    rw [h1, hℓ] at this
    simp [stumpAt] at this
  · have := h [stumpAt 0 1 0 1] 1 (by simp [stumpAt_wf]) [nearOne, fun _ => 0] nearOne 0 (fun _ => 0) _ (by simp) (by decide) stump_predictCast
    have e1 : roundSingle (nearOne 0) = 1 := by decide +kernel
    have e2 : roundSingle 0 = 0 := by decide +kernel
    rw [h3] at this
    simp [e1, e2] at this

/-- The hypotheses of the theorems above are met: the row `3/10` (not a number of single precision) is clear of the split of a stump at 1, and the row
`1` (a number of single precision, on the threshold) too; the row `1 + 2 ^ -30` is not. -/
example : ClearOfSplits (stumpAt 0 1 0 1) (fun _ => 3 / 10) ∧ ClearOfSplits (stumpAt 0 1 0 1) (fun _ => 1) ∧
    ¬ ClearOfSplits (stumpAt 0 1 0 1) nearOne ∧ roundSingle (3 / 10) ≠ 3 / 10 ∧ IsSingle ((stumpAt 0 1 0 1).threshold 0) := by
  have h0 : ∀ n, 0 ≤ (stumpAt 0 1 0 1).left n → n = 0 := by
    intro n hn
    by_contra h
    simp [stumpAt, h] at hn
  have hs : IsSingle 1 := ⟨1, 0, by norm_num, by norm_num⟩
  refine ⟨fun n _ hl => ?_, fun n _ hl => Or.inl hs, fun h => ?_, by decide +kernel, hs⟩
  · cases h0 n hl
    right
    show |(3 / 10 : ℚ)| / 2 ^ 24 < |3 / 10 - 1|
    decide +kernel
  · rcases h 0 (.refl _) (by decide) with h | h
    · have := roundSingle_of_isSingle h
      revert this
      show ¬ roundSingle (1 + 1 / 2 ^ 30) = 1 + 1 / 2 ^ 30
      decide +kernel
    · revert h
      show ¬ |(1 + 1 / 2 ^ 30 : ℚ)| / 2 ^ 24 < |1 + 1 / 2 ^ 30 - 1|
      decide +kernel

end Acv
