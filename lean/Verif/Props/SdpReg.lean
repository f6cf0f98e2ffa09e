import Verif.Lemmas.SdpReg
import Verif.Spec.SdpReg
import Verif.Props.TreeSdp
import Verif.Props.Search

/-! # C69-C71: same decision probability of a regression ensemble -/

namespace Acv

/-! ## C69: the discrete estimator -/

theorem close_not_far (tX a b : ℚ) : (!farOut tX a b) = decide ((b - a) ^ 2 ≤ tX) := by
  unfold farOut
  have : (b - a) ^ 2 = (a - b) * (a - b) := by ring
  rw [this]
  by_cases h : tX < (a - b) * (a - b)
  · simp [h, not_le.mpr h]
  · simp [h, not_lt.mp h]

theorem closeShare_eq (y : Row → ℚ) (tX : ℚ) (data : List Row) (S : List Nat) (x : Row) :
    closeShare y tX data S x = (((matching S x data).filter fun z => !farOut tX (y x) (y z)).length : ℚ) / (matching S x data).length := by
  unfold closeShare
  congr 3
  apply List.filter_congr
  intro z _
  rw [close_not_far]

/-- **C69**, ensembles with a base offset: if the mean of `g² - 2 y(x) g`, with `g` the output minus the offset, is not the same for
the close and for the distant rows, the discrete SDP is the share of close rows among the rows that agree with `x` on `S`. -/
theorem C69_offset_partial {ts : List TreeArr} {m : Nat} (hts : ∀ t ∈ ts, WellFormed t m) {base : Nat → ℚ} {y : Row → ℚ}
    (hy : ∀ z, ensemblePredict ts none none base (full z) 0 = some (y z)) (tX : ℚ) {data : List Row} {S : List Nat}
    (hS : ∀ s ∈ S, s < m) {x : Row} (hx : ∀ t ∈ ts, OffSplits t x) (hd : ∀ t ∈ ts, ∀ z ∈ data, OffSplits t z)
    (hne : matching S x data ≠ [])
    (hdiff : meanOver ((matching S x data).filter fun z => tX < (y x - y z) * (y x - y z))
        (fun z => (y z - base 0) * (y z - base 0) - 2 * y x * (y z - base 0))
      ≠ meanOver ((matching S x data).filter fun z => ¬ tX < (y x - y z) * (y x - y z))
        (fun z => (y z - base 0) * (y z - base 0) - 2 * y x * (y z - base 0))) :
    sdpRegCatCy ts m y tX data S x = closeShare y tX data S x := by
  have hg : ∀ z, treeTotal ts z = y z - base 0 := fun z => predict_leafAt hts (hy z)
  have hmean : ∀ rows : List Row, (∀ z ∈ rows, z ∈ matching S x data) →
      regCatMean ts m S x (y x) rows
        = meanOver rows fun z => (y z - base 0) * (y z - base 0) - 2 * y x * (y z - base 0) := by
    intro rows hrows
    have hmem : ∀ z ∈ rows, z ∈ data ∧ ∀ s ∈ S, z s = x s := by
      intro z hz
      have := hrows z hz
      rw [matching_eq, List.mem_filter, eqOn_iff] at this
      exact this
    rw [regCatMean_eq hts hS hx (y x) (fun z hz => (hmem z hz).2) fun t ht z hz => hd t ht z (hmem z hz).1]
    simp only [hg]
  have h1 : ((matching S x data).filter fun z => tX < (y x - y z) * (y x - y z))
      = (matching S x data).filter fun z => farOut tX (y x) (y z) := rfl
  have h2 : ((matching S x data).filter fun z => ¬ tX < (y x - y z) * (y x - y z))
      = (matching S x data).filter fun z => !farOut tX (y x) (y z) := by
    congr 1; funext z; unfold farOut; exact decide_not
  rw [h1, h2] at hdiff
  unfold sdpRegCatCy
  simp only
  rw [← matching_eq, hmean _ fun z hz => hz, hmean _ fun z hz => (List.mem_filter.mp hz).1,
    hmean _ fun z hz => (List.mem_filter.mp hz).1, guardDiv_eq, closeShare_eq]
  have hsp := filter_split (p := fun z => farOut tX (y x) (y z)) (matching S x data)
    (fun z => (y z - base 0) * (y z - base 0) - 2 * y x * (y z - base 0))
  rw [← mixture (rows := matching S x data) (by rw [hsp.1]; omega) (by rw [hsp.2]; ring) hne hdiff.symm]
  rw [← neg_sub, ← neg_sub (meanOver ((matching S x data).filter fun z => !farOut tX (y x) (y z)) _), neg_div_neg_eq]

/-- **C69**, ensembles without base offset (random forests, trees): for every background on no threshold, every `S`, every
tolerance, the discrete SDP is the share of close rows among the rows that agree with `x` on `S`, if one of these rows is distant
or the mean of `y(z)² - 2 y(x) y(z)` over them is not 0. It is between 0 and 1 in any case. Missing (false): the remaining case and
the offsets, see `C69_zero_false` and `C69_offset_false`. -/
theorem C69_frequency_partial {ts : List TreeArr} {m : Nat} (hts : ∀ t ∈ ts, WellFormed t m) {base : Nat → ℚ} (hb : base 0 = 0)
    {y : Row → ℚ} (hy : ∀ z, ensemblePredict ts none none base (full z) 0 = some (y z)) (tX : ℚ) {data : List Row} {S : List Nat}
    (hS : ∀ s ∈ S, s < m) {x : Row} (hx : ∀ t ∈ ts, OffSplits t x) (hd : ∀ t ∈ ts, ∀ z ∈ data, OffSplits t z) :
    ((∃ z ∈ matching S x data, tX < (y z - y x) ^ 2) ∨ ((matching S x data).map fun z => y z * (y z - 2 * y x)).sum ≠ 0 →
      sdpRegCatCy ts m y tX data S x = closeShare y tX data S x) ∧
    0 ≤ sdpRegCatCy ts m y tX data S x ∧ sdpRegCatCy ts m y tX data S x ≤ 1 := by
  have hg : ∀ z, treeTotal ts z = y z := fun z => by
    have := predict_leafAt hts (hy z); rw [hb, sub_zero] at this; exact this
  have hmean : ∀ rows : List Row, (∀ z ∈ rows, z ∈ matching S x data) →
      regCatMean ts m S x (y x) rows = meanOver rows fun z => y z * y z - 2 * y x * y z := by
    intro rows hrows
    have hmem : ∀ z ∈ rows, z ∈ data ∧ ∀ s ∈ S, z s = x s := by
      intro z hz
      have := hrows z hz
      rw [matching_eq, List.mem_filter, eqOn_iff] at this
      exact this
    rw [regCatMean_eq hts hS hx (y x) (fun z hz => (hmem z hz).2) fun t ht z hz => hd t ht z (hmem z hz).1]
    simp only [hg]
  have hval : sdpRegCatCy ts m y tX data S x
      = (meanOver ((matching S x data).filter fun z => farOut tX (y x) (y z)) (fun z => y z * y z - 2 * y x * y z)
          - meanOver (matching S x data) fun z => y z * y z - 2 * y x * y z)
        / (meanOver ((matching S x data).filter fun z => farOut tX (y x) (y z)) (fun z => y z * y z - 2 * y x * y z)
          - meanOver ((matching S x data).filter fun z => !farOut tX (y x) (y z)) fun z => y z * y z - 2 * y x * y z) := by
    unfold sdpRegCatCy
    simp only
    rw [← matching_eq, hmean _ fun z hz => hz, hmean _ fun z hz => (List.mem_filter.mp hz).1,
      hmean _ fun z hz => (List.mem_filter.mp hz).1, guardDiv_eq]
  by_cases hm : matching S x data = []
  · rw [hval, hm, closeShare_eq, hm]; simp
  have hsp := filter_split (p := fun z => farOut tX (y x) (y z)) (matching S x data) (fun z => y z * y z - 2 * y x * y z)
  have hshare : 0 ≤ closeShare y tX data S x ∧ closeShare y tX data S x ≤ 1 := by
    rw [closeShare_eq]
    refine ⟨div_nonneg (Nat.cast_nonneg _) (Nat.cast_nonneg _), div_le_one_of_le₀ ?_ (by positivity)⟩
    exact_mod_cast List.length_filter_le _ _
  have main : meanOver ((matching S x data).filter fun z => farOut tX (y x) (y z)) (fun z => y z * y z - 2 * y x * y z)
      ≠ meanOver ((matching S x data).filter fun z => !farOut tX (y x) (y z)) (fun z => y z * y z - 2 * y x * y z) →
      sdpRegCatCy ts m y tX data S x = closeShare y tX data S x := by
    intro hdiff
    rw [hval, closeShare_eq, ← mixture (rows := matching S x data) (by rw [hsp.1]; omega) (by rw [hsp.2]; ring) hm hdiff.symm]
    rw [← neg_sub, ← neg_sub (meanOver ((matching S x data).filter fun z => !farOut tX (y x) (y z)) _), neg_div_neg_eq]
  by_cases hfar : (matching S x data).filter (fun z => farOut tX (y x) (y z)) = []
  · -- no distant row
    have hall : (matching S x data).filter (fun z => !farOut tX (y x) (y z)) = matching S x data := by
      rw [List.filter_eq_self]
      intro z hz
      have := (List.filter_eq_nil_iff.mp hfar) z hz
      simpa using this
    have hnear : ¬ ∃ z ∈ matching S x data, tX < (y z - y x) ^ 2 := by
      rintro ⟨z, hz, h⟩
      have := (List.filter_eq_nil_iff.mp hfar) z hz
      unfold farOut at this
      have e : (y z - y x) ^ 2 = (y x - y z) * (y x - y z) := by ring
      rw [e] at h
      simp only [decide_eq_true_eq] at this
      exact this h
    have hsum : ((matching S x data).map fun z => y z * y z - 2 * y x * y z) = (matching S x data).map fun z => y z * (y z - 2 * y x) :=
      List.map_congr_left fun z _ => by ring
    have hl : (0 : ℚ) < (matching S x data).length := by exact_mod_cast List.length_pos_of_ne_nil hm
    by_cases h0 : ((matching S x data).map fun z => y z * (y z - 2 * y x)).sum = 0
    · refine ⟨fun h => ?_, ?_⟩
      · rcases h with h | h
        · exact absurd h hnear
        · exact absurd h0 h
      · rw [hval, hfar, hall]; unfold meanOver; rw [hsum, h0]; simp
    · have hv := main (by
        rw [hfar, hall]
        unfold meanOver
        rw [hsum]
        simp only [List.map_nil, List.sum_nil, zero_div]
        intro h
        exact h0 (by
          have := (div_eq_zero_iff.mp h.symm).resolve_right (ne_of_gt hl)
          exact this))
      exact ⟨fun _ => hv, hv ▸ hshare⟩
  · have hdiff : meanOver ((matching S x data).filter fun z => farOut tX (y x) (y z)) (fun z => y z * y z - 2 * y x * y z)
        ≠ meanOver ((matching S x data).filter fun z => !farOut tX (y x) (y z)) (fun z => y z * y z - 2 * y x * y z) ∨
        (matching S x data).filter (fun z => !farOut tX (y x) (y z)) = [] := by
      by_cases hn : (matching S x data).filter (fun z => !farOut tX (y x) (y z)) = []
      · exact Or.inr hn
      · left
        have h1 : tX - y x * y x
            < meanOver ((matching S x data).filter fun z => farOut tX (y x) (y z)) (fun z => y z * y z - 2 * y x * y z) := by
          apply meanOver_lt hfar
          intro z hz
          have := (List.mem_filter.mp hz).2
          unfold farOut at this
          have := of_decide_eq_true this
          nlinarith
        have h2 : meanOver ((matching S x data).filter fun z => !farOut tX (y x) (y z)) (fun z => y z * y z - 2 * y x * y z)
            ≤ tX - y x * y x := by
          apply meanOver_le hn
          intro z hz
          have := (List.mem_filter.mp hz).2
          rw [close_not_far] at this
          have := of_decide_eq_true this
          nlinarith
        exact (lt_of_le_of_lt h2 h1).ne'
    rcases hdiff with hdiff | hn
    · exact ⟨fun _ => main hdiff, (main hdiff) ▸ hshare⟩
    · -- no close row: both are 0
      have hall : (matching S x data).filter (fun z => farOut tX (y x) (y z)) = matching S x data := by
        rw [List.filter_eq_self]
        intro z hz
        have := (List.filter_eq_nil_iff.mp hn) z hz
        simpa using this
      have h0 : sdpRegCatCy ts m y tX data S x = 0 := by rw [hval, hall, sub_self, zero_div]
      have h1 : closeShare y tX data S x = 0 := by rw [closeShare_eq, hn]; simp
      exact ⟨fun _ => by rw [h0, h1], by rw [h0]; norm_num⟩

/-- **C69**, Python version: always between 0 and 1, 1 for all columns, 0 for none; otherwise equal to the Cython version
wherever that is between 0 and 1. -/
theorem C69_python (ts : List TreeArr) {m : Nat} (hm : 0 < m) (y : Row → ℚ) (tX : ℚ) (data : List Row) (x : Row) :
    (∀ S, 0 ≤ sdpRegCatPy ts m y tX data S x ∧ sdpRegCatPy ts m y tX data S x ≤ 1) ∧
    (∀ S : List Nat, S.Nodup → (∀ s, s ∈ S ↔ s < m) → sdpRegCatPy ts m y tX data S x = 1) ∧
    sdpRegCatPy ts m y tX data [] x = 0 ∧
    ∀ S : List Nat, S ≠ [] → S.length ≠ m → 0 ≤ sdpRegCatCy ts m y tX data S x → sdpRegCatCy ts m y tX data S x ≤ 1 →
      sdpRegCatPy ts m y tX data S x = sdpRegCatCy ts m y tX data S x := by
  refine ⟨fun S => ?_, fun S hnd h => ?_, ?_, fun S h1 h2 h3 h4 => ?_⟩
  · unfold sdpRegCatPy
    split
    · norm_num
    · split
      · norm_num
      · exact clamp01_range _
  · unfold sdpRegCatPy; rw [if_pos (full_length hnd h)]
  · unfold sdpRegCatPy; simp [hm.ne]
  · unfold sdpRegCatPy; rw [if_neg h2, if_neg h1, clamp01_id h3 h4]

/-- A tree with one split: column `c` against `th`, values `a` (left) and `b` (right). -/
def stumpAt (c : Nat) (th a b : ℚ) : TreeArr where
  size := 3
  left := fun n => if n = 0 then 1 else -1
  right := fun n => if n = 0 then 2 else -1
  dflt := fun n => if n = 0 then 1 else -1
  feature := fun n => if n = 0 then c else -2
  threshold := fun n => if n = 0 then th else -2
  value := fun n _ => if n = 1 then a else if n = 2 then b else 0
  weight := fun _ => 1

theorem stumpAt_isTree {c m : Nat} (hc : c < m) (th a b : ℚ) : IsTree (stumpAt c th a b) m (.node 0 c th (.leaf 1) (.leaf 2)) where
  root := rfl
  enc := by simp [Encodes, stumpAt, BTree.id]
  nodup := by simp [BTree.ids]
  all := by intro n; simp [BTree.ids, stumpAt]; omega
  vars := by intro f hf; simp [BTree.vars] at hf; omega

theorem stumpAt_wf {c m : Nat} (hc : c < m) (th a b : ℚ) : WellFormed (stumpAt c th a b) m := ⟨_, stumpAt_isTree hc th a b⟩

theorem stumpAt_off {c : Nat} {th a b : ℚ} {z : Row} (h : z c ≠ th) : OffSplits (stumpAt c th a b) z := by
  intro n hn hl
  have : n = 0 := by
    by_contra h0
    simp [stumpAt, h0] at hl
  subst this
  simpa [stumpAt] using h

/-- what a stump predicts -/
theorem stumpAt_leaf (c : Nat) (th a b : ℚ) (z : Row) :
    (stumpAt c th a b).value (leafAt (stumpAt c th a b) z) 0 = if z c ≤ th then a else b := by
  have hw : WellFormed (stumpAt c th a b) (c + 1) := stumpAt_wf (Nat.lt_succ_self c) th a b
  have h1 := (endsIn_iff (stumpAt_isTree (Nat.lt_succ_self c) th a b) _ _).mp (leafAt_endsIn hw z)
  rw [h1]
  by_cases h : z c ≤ th <;> simp [BTree.descendObs, full, stumpAt, h]

theorem predict_treeTotal {ts : List TreeArr} {m : Nat} (hts : ∀ t ∈ ts, WellFormed t m) (base : Nat → ℚ) (z : Row) :
    ensemblePredict ts none none base (full z) 0 = some (treeTotal ts z + base 0) := by
  have h1 := (C03_predict_is_sum_of_leaf_values hts none none base (full z) 0).2 (fun t => leafAt t z)
    (fun t ht => leafAt_endsIn (hts t ht) z)
  have h2 : effLimit ts.length none none = ts.length := by rw [C03_tree_limit]; rfl
  rw [h2, List.take_length] at h1
  rw [h1]
  unfold treeTotal
  first | rfl | rw [add_comm]

/-- The claim of C69 in full: for every ensemble, the share of close rows. -/
def C69_claim : Prop :=
  ∀ (ts : List TreeArr) (m : Nat), (∀ t ∈ ts, WellFormed t m) → ∀ (base : Nat → ℚ) (y : Row → ℚ),
    (∀ z, ensemblePredict ts none none base (full z) 0 = some (y z)) → ∀ (tX : ℚ) (data : List Row) (S : List Nat), (∀ s ∈ S, s < m) →
    ∀ x : Row, (∀ t ∈ ts, OffSplits t x) → (∀ t ∈ ts, ∀ z ∈ data, OffSplits t z) →
      sdpRegCatCy ts m y tX data S x = closeShare y tX data S x

theorem closeShare_val {y : Row → ℚ} {tX : ℚ} {data : List Row} {S : List Nat} {x : Row} {q : ℚ}
    (h : (((data.filter (eqOn S x)).filter fun z => !farOut tX (y x) (y z)).length : ℚ) / (data.filter (eqOn S x)).length = q) :
    closeShare y tX data S x = q := by
  rw [closeShare_eq, matching_eq]; exact h

/-- **C69 is false** where the model predicts 0: all rows that agree with `x` have its output, and the SDP is 0, not 1. -/
theorem C69_zero_false : ¬ C69_claim := by
  intro h
  have h1 := h [stumpAt 0 (1 / 2) 0 3] 2 (by simp [stumpAt_wf]) (fun _ => 0) (fun z => if z 0 ≤ 1 / 2 then 0 else 3)
    (by
      intro z
      rw [predict_treeTotal (m := 2) (by simp [stumpAt_wf])]
      simp [treeTotal, stumpAt_leaf]) 1 [row2 0 0, row2 0 1] [0] (by simp) (row2 0 0)
    (by intro t ht; rw [List.mem_singleton.mp ht]; exact stumpAt_off (by decide +kernel))
    (by
      intro t ht z hz
      rw [List.mem_singleton.mp ht]
      simp only [List.mem_cons, List.not_mem_nil, or_false] at hz
      rcases hz with rfl | rfl <;> exact stumpAt_off (by decide +kernel))
  rw [closeShare_val (q := 1) (by decide +kernel)] at h1
  revert h1
  decide +kernel

/-- **C69 is false** of a boosted ensemble with base offset 1: half of the rows that agree with `x` have its output 2, the others
have 4, and the SDP for the tolerance 1 is 0. -/
theorem C69_offset_false : ¬ C69_claim := by
  intro h
  have h1 := h [stumpAt 1 (1 / 2) 1 3] 2 (by simp [stumpAt_wf]) (fun _ => 1) (fun z => (if z 1 ≤ 1 / 2 then 1 else 3) + 1)
    (by
      intro z
      rw [predict_treeTotal (m := 2) (by simp [stumpAt_wf])]
      simp [treeTotal, stumpAt_leaf]) 1 [row2 0 0, row2 0 1] [0] (by simp) (row2 0 0)
    (by intro t ht; rw [List.mem_singleton.mp ht]; exact stumpAt_off (by decide +kernel))
    (by
      intro t ht z hz
      rw [List.mem_singleton.mp ht]
      simp only [List.mem_cons, List.not_mem_nil, or_false] at hz
      rcases hz with rfl | rfl <;> exact stumpAt_off (by decide +kernel))
  rw [closeShare_val (q := 1 / 2) (by decide +kernel)] at h1
  revert h1
  decide +kernel

/-- two stumps, outputs 1, 2, 4, 5 -/
def regForest : List TreeArr := [stumpAt 0 (1 / 2) 1 2, stumpAt 1 (1 / 2) 0 3]

/-- what `regForest` predicts -/
def regOut (z : Row) : ℚ := (if z 0 ≤ 1 / 2 then 1 else 2) + if z 1 ≤ 1 / 2 then 0 else 3

/-- background of the examples -/
def regData : List Row := [row2 0 0, row2 0 1, row2 1 0, row2 1 1, row2 1 1]

theorem regForest_wf : ∀ t ∈ regForest, WellFormed t 2 := by
  intro t ht
  simp only [regForest, List.mem_cons, List.not_mem_nil, or_false] at ht
  rcases ht with rfl | rfl <;> exact stumpAt_wf (by decide) _ _ _

theorem regForest_out (z : Row) : ensemblePredict regForest none none (fun _ => 0) (full z) 0 = some (regOut z) := by
  rw [predict_treeTotal regForest_wf]
  simp [treeTotal, regForest, stumpAt_leaf, regOut]

theorem regForest_off : ∀ t ∈ regForest, ∀ z ∈ regData, OffSplits t z := by
  intro t ht
  simp only [regForest, List.mem_cons, List.not_mem_nil, or_false] at ht
  rcases ht with rfl | rfl <;> (unfold OffSplits; decide +kernel)

/-- a concrete case: two of the three rows that agree with `x` on column 0 are close to it -/
example : (∀ t ∈ regForest, WellFormed t 2) ∧ (∀ z, ensemblePredict regForest none none (fun _ => 0) (full z) 0 = some (regOut z)) ∧
    (∀ t ∈ regForest, OffSplits t (row2 1 1)) ∧ (∀ t ∈ regForest, ∀ z ∈ regData, OffSplits t z) ∧
    (∃ z ∈ matching [0] (row2 1 1) regData, 1 < (regOut z - regOut (row2 1 1)) ^ 2) ∧
    sdpRegCatCy regForest 2 regOut 1 regData [0] (row2 1 1) = 2 / 3 ∧ closeShare regOut 1 regData [0] (row2 1 1) = 2 / 3 := by
  refine ⟨regForest_wf, regForest_out, fun t ht => regForest_off t ht _ (by simp [regData]), regForest_off, ⟨row2 1 0, ?_, ?_⟩,
    by decide +kernel, closeShare_val (by decide +kernel)⟩
  · rw [matching_eq]; simp [regData, eqOn, row2]
  · decide +kernel

/-! ## C70: the leaf estimator -/

/-- The claim of C70 for an ensemble: the result for an observation does not depend on the other observations of the call. -/
def C70_claim (ts : List TreeArr) : Prop :=
  ∀ (m : Nat) (y : Row → ℚ) (tX : ℚ) (data : List Row) (S : List Nat) (X X' : List Row) (i i' : Nat) (x : Row),
    X[i]? = some x → X'[i']? = some x → (sdpRegCy ts m y tX data S X)[i]? = (sdpRegCy ts m y tX data S X')[i']?

theorem regGroup_single (t : TreeArr) (m : Nat) (S : List Nat) (x : Row) (fx : ℚ) (rows : List Row) (norm norm' : Nat → ℚ) :
    (regGroup [t] m S x fx rows norm).2 = (regGroup [t] m S x fx rows norm').2 := by
  simp [regGroup, regPair]

theorem regLoop_single (t : TreeArr) (m : Nat) (y : Row → ℚ) (tX : ℚ) (data : List Row) (S : List Nat) :
    ∀ (X : List Row) (N : Norms), regLoop [t] m y tX data S N X = X.map fun x => (regObs [t] m y tX data S Norms.zero x).2
  | [], _ => rfl
  | x :: X, N => by
    rw [regLoop, List.map_cons, regLoop_single t m y tX data S X]
    rfl

/-- **C70**, a single tree: the result for an observation depends on this observation only. Missing (false): several trees. -/
theorem C70_independent_partial (t : TreeArr) : C70_claim [t] := by
  intro m y tX data S X X' i i' x h h'
  unfold sdpRegCy
  rw [regLoop_single, regLoop_single, List.getElem?_map, List.getElem?_map, h, h']

/-- **C70 is false of two stumps**: the same observation given twice gets 282/325 and -12/25. -/
theorem C70_independent_false : ¬ C70_claim regForest := by
  intro h
  have := h 2 regOut 1 regData [0] [row2 1 1, row2 1 1] [row2 1 1, row2 1 1] 0 1 (row2 1 1) rfl rfl
  revert this
  decide +kernel

/-- `sdpTree` with the outputs 1, 3, 5. -/
def regTree : TreeArr := { sdpTree with value := fun n _ => if n = 1 then 1 else if n = 3 then 3 else if n = 4 then 5 else 0 }

theorem regTree_isTree : IsTree regTree 2 sdpBTree where
  root := rfl
  enc := by simp [sdpBTree, Encodes, regTree, sdpTree, exTree, BTree.id]
  nodup := by decide
  all := by
    intro n
    have : n ∈ sdpBTree.ids ↔ n ∈ exBTree.ids := by simp [sdpBTree, exBTree, BTree.ids]
    rw [this]; exact exTree_isTree.all n
  vars := by
    intro f hf
    simp [sdpBTree, BTree.vars] at hf
    omega

/-- what `regTree` predicts -/
def regTreeOut (z : Row) : ℚ := if z 1 ≤ 1 / 2 then 1 else if z 0 ≤ 3 / 2 then 3 else 5

theorem regTree_out (z : Row) : ensemblePredict [regTree] none none (fun _ => 0) (full z) 0 = some (regTreeOut z) := by
  have hw : WellFormed regTree 2 := ⟨_, regTree_isTree⟩
  rw [predict_treeTotal (m := 2) (by simp [hw])]
  have h1 := (endsIn_iff regTree_isTree _ _).mp (leafAt_endsIn hw z)
  simp only [treeTotal, List.map_cons, List.map_nil, List.sum_cons, List.sum_nil, h1, descendObs_full, sdpBTree, BTree.descend]
  unfold regTreeOut
  by_cases h0 : z 1 ≤ 1 / 2
  · rw [if_pos h0, if_pos h0]; simp [regTree]
  · by_cases h2 : z 0 ≤ 3 / 2
    · rw [if_neg h0, if_neg h0, if_pos h2, if_pos h2]; simp [regTree]
    · rw [if_neg h0, if_neg h0, if_neg h2, if_neg h2]; simp [regTree]

/-- **C70, range**: false even of one tree, an observation off the thresholds and a background off the thresholds (7/5). -/
theorem C70_range_false : ∃ (t : TreeArr) (y : Row → ℚ) (data : List Row) (x : Row), WellFormed t 2 ∧
    (∀ z, ensemblePredict [t] none none (fun _ => 0) (full z) 0 = some (y z)) ∧ OffSplits t x ∧ (∀ z ∈ data, OffSplits t z) ∧
    sdpRegCy [t] 2 y 4 data [0] [x] = [7 / 5] := by
  refine ⟨regTree, regTreeOut, [row2 0 0, row2 0 1, row2 2 1], row2 0 0, ⟨_, regTree_isTree⟩, regTree_out, ?_, ?_, ?_⟩
  · unfold OffSplits; decide +kernel
  · unfold OffSplits; decide +kernel
  · decide +kernel

theorem sum_leafNo (t : TreeArr) (f : Nat → ℚ) :
    ((List.range t.leafIdx.length).map fun j => f (leafNo t j)).sum = (t.leafIdx.map f).sum := by
  congr 1
  apply List.ext_getElem
  · simp
  · intro i h1 h2
    simp only [List.getElem_map, List.getElem_range, leafNo]
    congr 1
    rw [List.getD_eq_getElem?_getD, List.getElem?_eq_getElem (by simpa using h1)]
    rfl

theorem satCC_all {r : Rect} {S : List Nat} {m : Nat} (hS : ∀ s, s ∈ S ↔ s < m) (z : Row) : satCC r S z = satCC r (List.range m) z := by
  unfold satCC
  rw [Bool.eq_iff_iff, List.all_eq_true, List.all_eq_true]
  simp only [hS, List.mem_range]

theorem sat_all {r : Rect} {S : List Nat} {m : Nat} (hS : ∀ s, s ∈ S ↔ s < m) (z : Row) : sat r S z = sat r (List.range m) z := by
  rw [Bool.eq_iff_iff, sat_iff, sat_iff]
  simp only [hS, List.mem_range]

/-- one group of one tree, all columns known: only the leaf of `x` counts -/
theorem regGroup_all {t : TreeArr} {m : Nat} (ht : WellFormed t m) {S : List Nat} (hS : ∀ s, s ∈ S ↔ s < m) {x : Row} (hx : OffSplits t x)
    (fx : ℚ) {rows : List Row} (hd : ∀ z ∈ rows, OffSplits t z) (norm : Nat → ℚ) :
    (regGroup [t] m S x fx rows norm).2
      = if cnt rows (t.leafRect (leafAt t x)) (List.range m) = 0 then 0
        else t.value (leafAt t x) 0 * t.value (leafAt t x) 0 - 2 * fx * t.value (leafAt t x) 0 := by
  classical
  have hp : ∀ j < t.leafIdx.length, (regCells [t] m S x fx rows t 0).p j j
      = if InBox m (t.leafRect (leafNo t j)) x then
          guardDiv (cnt rows (t.leafRect (leafNo t j)) (List.range m)) (cnt rows (t.leafRect (leafNo t j)) (List.range m)) else 0 := by
    intro j hj
    have hmem : leafNo t j ∈ t.leafIdx := by
      unfold leafNo; rw [List.getD_eq_getElem?_getD, List.getElem?_eq_getElem hj]; exact List.getElem_mem hj
    simp only [regCells, List.zipIdx_cons, List.zipIdx_nil, List.map_cons, List.map_nil, List.sum_cons, List.sum_nil, add_zero, if_true, hj,
      and_self]
    rw [satCC_eq (offSplits_lo ht hx hmem), cntCC_eq fun z hz => offSplits_lo ht (hd z hz) hmem,
      cntCC_eq fun z hz => offSplits_lo ht (hd z hz) hmem, sat_all hS]
    have hc : cnt rows (t.leafRect (leafNo t j)) S = cnt rows (t.leafRect (leafNo t j)) (List.range m) := by
      unfold cnt; congr 2; funext z; exact sat_all hS z
    rw [hc]
    by_cases h : sat (t.leafRect (leafNo t j)) (List.range m) x = true
    · rw [if_pos h, if_pos (sat_range.mp h)]
    · rw [if_neg h, if_neg (mt sat_range.mpr h)]
  have hm : ∀ j < t.leafIdx.length, (regCells [t] m S x fx rows t 0).mean j j
      = if InBox m (t.leafRect (leafNo t j)) x then
          regDiag (cnt rows (t.leafRect (leafNo t j)) (List.range m)) (cnt rows (t.leafRect (leafNo t j)) (List.range m)) fx
            (t.value (leafNo t j) 0) else 0 := by
    intro j hj
    have hmem : leafNo t j ∈ t.leafIdx := by
      unfold leafNo; rw [List.getD_eq_getElem?_getD, List.getElem?_eq_getElem hj]; exact List.getElem_mem hj
    simp only [regCells, List.zipIdx_cons, List.zipIdx_nil, List.map_cons, List.map_nil, List.sum_cons, List.sum_nil, add_zero, if_true, hj,
      and_self]
    rw [satCC_eq (offSplits_lo ht hx hmem), cntCC_eq fun z hz => offSplits_lo ht (hd z hz) hmem,
      cntCC_eq fun z hz => offSplits_lo ht (hd z hz) hmem, sat_all hS]
    have hc : cnt rows (t.leafRect (leafNo t j)) S = cnt rows (t.leafRect (leafNo t j)) (List.range m) := by
      unfold cnt; congr 2; funext z; exact sat_all hS z
    rw [hc]
    by_cases h : sat (t.leafRect (leafNo t j)) (List.range m) x = true
    · rw [if_pos h, if_pos (sat_range.mp h)]
    · rw [if_neg h, if_neg (mt sat_range.mpr h)]
  have hn : ((List.range t.leafIdx.length).map fun j => (regCells [t] m S x fx rows t 0).p j j).sum
      = guardDiv (cnt rows (t.leafRect (leafAt t x)) (List.range m)) (cnt rows (t.leafRect (leafAt t x)) (List.range m)) := by
    rw [List.map_congr_left fun j hj => hp j (List.mem_range.mp hj),
      sum_leafNo t fun ℓ => if InBox m (t.leafRect ℓ) x then
        guardDiv (cnt rows (t.leafRect ℓ) (List.range m)) (cnt rows (t.leafRect ℓ) (List.range m)) else 0]
    exact sum_leaf_indicator ht x _
  have hs : ∀ n : ℚ, ((List.range t.leafIdx.length).map fun j => if n ≠ 0 then (regCells [t] m S x fx rows t 0).mean j j / n else 0).sum
      = if n ≠ 0 then regDiag (cnt rows (t.leafRect (leafAt t x)) (List.range m)) (cnt rows (t.leafRect (leafAt t x)) (List.range m)) fx
            (t.value (leafAt t x) 0) / n else 0 := by
    intro n
    by_cases h0 : n ≠ 0
    · simp only [if_pos h0]
      rw [list_sum_mul_div, List.map_congr_left fun j hj => hm j (List.mem_range.mp hj),
        sum_leafNo t fun ℓ => if InBox m (t.leafRect ℓ) x then
          regDiag (cnt rows (t.leafRect ℓ) (List.range m)) (cnt rows (t.leafRect ℓ) (List.range m)) fx (t.value ℓ 0) else 0,
        sum_leaf_indicator ht x fun ℓ =>
          regDiag (cnt rows (t.leafRect ℓ) (List.range m)) (cnt rows (t.leafRect ℓ) (List.range m)) fx (t.value ℓ 0)]
    · simp [h0]
  have e : (regGroup [t] m S x fx rows norm).2
      = 0 + ((List.range t.leafIdx.length).map fun j =>
          if ((List.range t.leafIdx.length).map fun j => (regCells [t] m S x fx rows t 0).p j j).sum ≠ 0 then
            (regCells [t] m S x fx rows t 0).mean j j / ((List.range t.leafIdx.length).map fun j => (regCells [t] m S x fx rows t 0).p j j).sum
          else 0).sum := rfl
  rw [e, hs, hn, zero_add]
  by_cases hc : cnt rows (t.leafRect (leafAt t x)) (List.range m) = 0
  · simp [hc, guardDiv]
  · have hc' : (cnt rows (t.leafRect (leafAt t x)) (List.range m) : ℚ) ≠ 0 := by exact_mod_cast hc
    rw [if_neg hc, guardDiv_eq, div_self hc', if_pos one_ne_zero, regDiag_eq]
    field_simp

/-- **C70**, all columns known, a single tree: the result is 1 for every observation whose output is not 0 and whose leaf contains a
background row. -/
theorem C70_all_columns_partial {t : TreeArr} {m : Nat} (ht : WellFormed t m) {base : Nat → ℚ} (hb : base 0 = 0) {y : Row → ℚ}
    (hy : ∀ z, ensemblePredict [t] none none base (full z) 0 = some (y z)) {tX : ℚ} (htX : 0 ≤ tX) {data : List Row} {S : List Nat}
    (hS : ∀ s, s ∈ S ↔ s < m) (hd : ∀ z ∈ data, OffSplits t z) {X : List Row} {i : Nat} {x : Row} (hi : X[i]? = some x)
    (hx : OffSplits t x) (hx0 : y x ≠ 0) (hleaf : ∃ z ∈ data, ∀ ℓ, EndsIn t (full x) ℓ → EndsIn t (full z) ℓ) :
    (sdpRegCy [t] m y tX data S X)[i]? = some 1 := by
  have hg : ∀ z, y z = t.value (leafAt t z) 0 := fun z => by
    have := predict_leafAt (m := m) (by simpa using ht) (hy z)
    rw [hb, sub_zero] at this
    simpa using this.symm
  obtain ⟨b, hbt⟩ := ht
  have hw : WellFormed t m := ⟨b, hbt⟩
  have hin : ∀ z, sat (t.leafRect (leafAt t x)) (List.range m) z = true ↔ leafAt t z = leafAt t x := fun z => by
    rw [sat_range]; exact inBox_leaf_iff hw z (leafAt_mem hw x)
  have hnofar : cnt (data.filter fun z => farOut tX (y x) (y z)) (t.leafRect (leafAt t x)) (List.range m) = 0 := by
    unfold cnt
    rw [List.length_eq_zero_iff, List.filter_eq_nil_iff]
    intro z hz hs
    have h1 := (hin z).mp hs
    have h2 := (List.mem_filter.mp hz).2
    unfold farOut at h2
    rw [hg x, hg z, h1] at h2
    simp at h2
    linarith
  obtain ⟨z, hz, hzl⟩ := hleaf
  have hzx : leafAt t z = leafAt t x := by
    have h1 := (endsIn_iff hbt _ _).mp (hzl _ (leafAt_endsIn hw x))
    have h2 := (endsIn_iff hbt _ _).mp (leafAt_endsIn hw z)
    rw [h2, ← h1]
  have hzin : sat (t.leafRect (leafAt t x)) (List.range m) z = true := (hin z).mpr hzx
  have hall : cnt data (t.leafRect (leafAt t x)) (List.range m) ≠ 0 := by
    unfold cnt
    rw [Ne, List.length_eq_zero_iff, List.filter_eq_nil_iff]
    exact fun h => h z hz hzin
  have hnear : cnt (data.filter fun z => !farOut tX (y x) (y z)) (t.leafRect (leafAt t x)) (List.range m) ≠ 0 := by
    unfold cnt
    rw [Ne, List.length_eq_zero_iff, List.filter_eq_nil_iff]
    refine fun h => h z (List.mem_filter.mpr ⟨hz, ?_⟩) hzin
    unfold farOut
    rw [hg x, hg z, hzx]
    simpa using htX
  unfold sdpRegCy
  rw [regLoop_single, List.getElem?_map, hi]
  simp only [Option.map_some, Option.some.injEq]
  unfold regObs
  simp only
  rw [regGroup_all hw hS hx (y x) hd, regGroup_all hw hS hx (y x) fun z hz => hd z (List.mem_filter.mp hz).1,
    regGroup_all hw hS hx (y x) fun z hz => hd z (List.mem_filter.mp hz).1, if_pos hnofar, if_neg hall, if_neg hnear, guardDiv_eq]
  apply div_self
  rw [← hg x]
  intro h
  apply hx0
  have : y x * y x = 0 := by linarith
  simpa using this

example : (∃ z ∈ regData, ∀ ℓ, EndsIn regTree (full (row2 1 1)) ℓ → EndsIn regTree (full z) ℓ) ∧ regTreeOut (row2 1 1) ≠ 0 ∧
    OffSplits regTree (row2 1 1) ∧ (∀ z ∈ regData, OffSplits regTree z) ∧
    sdpRegCy [regTree] 2 regTreeOut 1 regData [1, 0] [row2 0 0, row2 1 1] = [1, 1] := by
  refine ⟨⟨row2 1 1, by simp [regData], fun _ h => h⟩, by decide +kernel, ?_, ?_, by decide +kernel⟩
  · unfold OffSplits; decide +kernel
  · unfold OffSplits; decide +kernel

/-- **C70**, Python version (`py_compute_sdp_reg`): always between 0 and 1, 1 for all columns and 0 for none. -/
theorem C70_python (ts : List TreeArr) {m : Nat} (hm : 0 < m) (y : Row → ℚ) (tX : ℚ) (data : List Row) (x : Row) :
    (∀ S, 0 ≤ sdpRegPy ts m y tX data S x ∧ sdpRegPy ts m y tX data S x ≤ 1) ∧
    (∀ S : List Nat, S.Nodup → (∀ s, s ∈ S ↔ s < m) → sdpRegPy ts m y tX data S x = 1) ∧ sdpRegPy ts m y tX data [] x = 0 := by
  refine ⟨fun S => ?_, fun S hnd h => ?_, ?_⟩
  · unfold sdpRegPy
    split
    · norm_num
    · split
      · norm_num
      · exact clamp01_range _
  · unfold sdpRegPy; rw [if_pos (full_length hnd h)]
  · unfold sdpRegPy; simp [hm.ne]

example : sdpRegPy regForest 2 regOut 1 regData [0] (row2 1 1) = 23 / 45 := by decide +kernel

/-! ## C71: searches -/

/-- **C69, small tolerance**: if the tolerance is smaller than the square of the output of `x`, the discrete SDP is the share of
close rows, without exception. -/
theorem C69_small_tolerance {ts : List TreeArr} {m : Nat} (hts : ∀ t ∈ ts, WellFormed t m) {base : Nat → ℚ} (hb : base 0 = 0)
    {y : Row → ℚ} (hy : ∀ z, ensemblePredict ts none none base (full z) 0 = some (y z)) {tX : ℚ} {data : List Row} {S : List Nat}
    (hS : ∀ s ∈ S, s < m) {x : Row} (hx : ∀ t ∈ ts, OffSplits t x) (hd : ∀ t ∈ ts, ∀ z ∈ data, OffSplits t z)
    (htol : tX < y x ^ 2) : sdpRegCatCy ts m y tX data S x = closeShare y tX data S x := by
  have h := C69_frequency_partial hts hb hy tX hS hx hd
  by_cases hfar : ∃ z ∈ matching S x data, tX < (y z - y x) ^ 2
  · exact h.1 (Or.inl hfar)
  · by_cases hne : matching S x data = []
    · have h1 : closeShare y tX data S x = 0 := by rw [closeShare_eq, hne]; simp
      rw [h1]
      unfold sdpRegCatCy
      simp only
      rw [← matching_eq, hne]
      simp [guardDiv]
    · refine h.1 (Or.inr ?_)
      apply ne_of_lt
      have key : ∀ l : List Row, (∀ z ∈ l, (y z - y x) ^ 2 ≤ tX) → l ≠ [] → (l.map fun z => y z * (y z - 2 * y x)).sum < 0 := by
        intro l
        induction l with
        | nil => intro _ h; exact absurd rfl h
        | cons a l ih =>
          intro hl _
          have h1 := hl a (by simp)
          have h2 : y a * (y a - 2 * y x) < 0 := by nlinarith
          by_cases hl0 : l = []
          · subst hl0; simpa using h2
          · have := ih (fun z hz => hl z (List.mem_cons_of_mem _ hz)) hl0
            simp only [List.map_cons, List.sum_cons]; linarith
      exact key _ (fun z hz => not_lt.mp fun h => hfar ⟨z, hz, h⟩) hne

theorem closeShare_congr_reports {players : List (List Nat)} {cols minimal : Nat} {v w : List Nat → ℚ} {pi : ℚ} {b : Best}
    (h : ∀ k S, Candidate players k S → v S = w S) (hr : Reports players cols minimal v pi b) : Reports players cols minimal w pi b := by
  obtain ⟨k, S, a1, a2, a3, a4, a5, a6, a7, a8⟩ := hr
  refine ⟨k, S, a1, a2, a3, a4, fun hl => by rw [a5 hl, h k S a2], a6, fun k' S' b1 b2 b3 => ?_, fun S' b1 => ?_⟩
  · rw [← h k' S' b3]; exact a7 k' S' b1 b2 b3
  · rw [← h k S' b1, ← h k S a2]; exact a8 S' b1

/-- **C71**, `importance_sdp_reg_cat` with at most 15 players, a forest without base offset and tolerances smaller than the squared
outputs: the search answers, and each observation reported at level `pi` or more gets the columns of a set whose share of close
rows is the reported probability, while no explored set of smaller size reaches `pi` and none of the same size has a larger share.
Missing: the set of all columns is reported with probability 1 without computing it (see `Reports`). -/
theorem C71_reported_partial {ts : List TreeArr} {cols : Nat} (hts : ∀ t ∈ ts, WellFormed t cols) {base : Nat → ℚ} (hb : base 0 = 0)
    {y : Row → ℚ} (hy : ∀ z, ensemblePredict ts none none base (full z) 0 = some (y z)) {tX : ℚ} {data X : List Row}
    (hd : ∀ t ∈ ts, ∀ z ∈ data, OffSplits t z) (hX : ∀ x ∈ X, (∀ t ∈ ts, OffSplits t x) ∧ tX < y x ^ 2)
    {C : List (List Nat)} (h : SearchArgs cols C (List.range cols)) (h15 : (searchPlayers C (List.range cols)).length ≤ 15)
    {pi : ℚ} (h0 : 0 < pi) (h1 : pi ≤ 1) (minimal : Nat) (stop : Bool) (half : Nat) :
    ∃ st, importanceSdpRegCat ts y tX data X cols C pi minimal stop half = some st ∧
      ∀ i x, X[i]? = some x → pi ≤ (st.best i).sdp →
        Reports (searchPlayers C (List.range cols)) cols minimal (fun S => closeShare y tX data S x) pi (st.best i) := by
  unfold importanceSdpRegCat globalSdpReg
  rw [levelsRf_eq _ _ h15]
  refine ⟨_, rfl, fun i x hi hpi => ?_⟩
  have hlt : i < X.length := by
    rw [List.getElem?_eq_some_iff] at hi; exact hi.1
  have hget : X.getD i (fun _ => 0) = x := by rw [List.getD_eq_getElem?_getD, hi]; rfl
  rw [batch_best finOk_id (valsOk_map _ X.length) cols pi stop half _ hlt] at hpi ⊢
  rw [hget] at hpi ⊢
  have hr := sample_reports finOk_id (playersOk h) (fun S => sdpRegCatCy ts cols y tX data S x) h0 h1 minimal _ stop half hpi
  refine closeShare_congr_reports (fun k S hS => ?_) hr
  have hx := hX x (List.mem_of_getElem? hi)
  exact C69_small_tolerance hts hb hy (fun s hs => (candidate_nodup (playersOk h) hS).2 s hs) hx.1 hd hx.2

/-- **C71**: the report of an observation does not depend on the other observations of the call. -/
theorem C71_independent (ts : List TreeArr) (y : Row → ℚ) (tX : ℚ) (data X X' : List Row) (cols : Nat) (C : List (List Nat)) (pi : ℚ)
    (minimal : Nat) (stop : Bool) (half : Nat) {st st' : Batch}
    (h : importanceSdpRegCat ts y tX data X cols C pi minimal stop half = some st)
    (h' : importanceSdpRegCat ts y tX data X' cols C pi minimal stop half = some st') {i i' : Nat} {x : Row}
    (hi : X[i]? = some x) (hi' : X'[i']? = some x) : st.best i = st'.best i' := by
  unfold importanceSdpRegCat globalSdpReg at h h'
  obtain ⟨l, hl, rfl⟩ := Option.map_eq_some_iff.1 h
  obtain ⟨l', hl', rfl⟩ := Option.map_eq_some_iff.1 h'
  rw [hl] at hl'
  cases hl'
  have a1 : i < X.length := by rw [List.getElem?_eq_some_iff] at hi; exact hi.1
  have a2 : i' < X'.length := by rw [List.getElem?_eq_some_iff] at hi'; exact hi'.1
  rw [batch_best finOk_id (valsOk_map _ X.length) cols pi stop half _ a1,
    batch_best finOk_id (valsOk_map _ X'.length) cols pi stop half _ a2]
  simp only [List.getD_eq_getElem?_getD, hi, hi']

/-- **C71**: the importance of a column is the fraction of observations reported at level `pi` whose columns contain it. -/
theorem C71_frequency (ts : List TreeArr) (y : Row → ℚ) (tX : ℚ) (data X : List Row) {cols : Nat} {C : List (List Nat)}
    (h : SearchArgs cols C (List.range cols)) (h15 : (searchPlayers C (List.range cols)).length ≤ 15) (pi : ℚ) (minimal : Nat) (stop : Bool)
    (half : Nat) : ∃ st, importanceSdpRegCat ts y tX data X cols C pi minimal stop half = some st ∧
      ∀ j, st.importance X.length j = reportedFraction st.best X.length pi j ∧ 0 ≤ st.importance X.length j ∧ st.importance X.length j ≤ 1 := by
  unfold importanceSdpRegCat globalSdpReg
  rw [levelsRf_eq _ _ h15]
  refine ⟨_, rfl, fun j => ?_⟩
  rw [frequency_of_nodup finOk_id (valsOk_map _ X.length) cols pi stop half (playersOk h)]
  exact ⟨rfl, reportedFraction_bounds _ _ _ _⟩

-- column 1 is reported for the observation (1, 1): all rows that agree with it on column 1 are close
example : (∀ x ∈ [row2 1 1], (∀ t ∈ regForest, OffSplits t x) ∧ 1 < regOut x ^ 2) ∧ SearchArgs 2 [[]] (List.range 2) ∧
    ∃ st, importanceSdpRegCat regForest regOut 1 regData [row2 1 1] 2 [[]] (9 / 10) 0 false 1 = some st ∧
      (st.best 0).sdp = 1 ∧ (st.best 0).cols = [1] ∧ st.importance 1 1 = 1 ∧ st.importance 1 0 = 0 := by
  refine ⟨?_, ⟨by decide, by decide, by decide, by decide⟩, _, rfl, by decide +kernel, by decide +kernel, by decide +kernel, by decide +kernel⟩
  intro x hx
  rw [List.mem_singleton.mp hx]
  exact ⟨fun t ht => regForest_off t ht _ (by simp [regData]), by decide +kernel⟩

/-- a row of three columns -/
def row3 (a b c : ℚ) : Row := fun j => if j = 0 then a else if j = 1 then b else if j = 2 then c else 0

/-- `regTree` on the columns 2 and 0, outputs 1, 2, 5. -/
def regTree3 : TreeArr := { sdpTree with
  feature := fun n => if n = 0 then 2 else if n = 2 then 0 else -2
  threshold := fun n => if n = 0 then 1 / 2 else if n = 2 then 1 / 2 else 0
  value := fun n _ => if n = 1 then 1 else if n = 3 then 2 else if n = 4 then 5 else 0 }

/-- what `regTree3` predicts -/
def regTree3Out (z : Row) : ℚ := if z 2 ≤ 1 / 2 then 1 else if z 0 ≤ 1 / 2 then 2 else 5

theorem regTree3_wf : WellFormed regTree3 3 := by
  refine ⟨.node 0 2 (1 / 2) (.leaf 1) (.node 2 0 (1 / 2) (.leaf 3) (.leaf 4)), ?_⟩
  constructor
  · rfl
  · simp [Encodes, regTree3, sdpTree, exTree, BTree.id]
  · decide
  · intro n
    have : n ∈ (BTree.node 0 2 (1 / 2) (.leaf 1) (.node 2 0 (1 / 2) (.leaf 3) (.leaf 4))).ids ↔ n ∈ exBTree.ids := by
      simp [exBTree, BTree.ids]
    rw [this]; exact exTree_isTree.all n
  · intro f hf
    simp [BTree.vars] at hf
    omega

/-- **C71 is false of `importance_sdp_reg` with groups**: columns 0 and 1 are given as a group, and the pair is reported with
probability 1 although `compute_sdp_reg` gives 3/5 for it, below the level 7/10. -/
theorem C71_groups_false : WellFormed regTree3 3 ∧ SearchArgs 3 [[0, 1]] (List.range 3) ∧
    ∃ st, importanceSdpReg1 regTree3 regTree3Out 0 [row3 0 0 1, row3 1 0 0, row3 1 0 0] [row3 0 0 1] 3 [[0, 1]] (7 / 10) 1 false 2 = some st ∧
      (st.best 0).sdp = 1 ∧ (st.best 0).cols = [0, 1] ∧
      sdpRegCy [regTree3] 3 regTree3Out 0 [row3 0 0 1, row3 1 0 0, row3 1 0 0] [0, 1] [row3 0 0 1] = [3 / 5] := by
  refine ⟨regTree3_wf, ⟨by decide, by decide, by decide, by decide⟩, _, rfl, by decide +kernel, by decide +kernel, by decide +kernel⟩

/-- **C71**, `importance_sdp_reg` of a single tree without groups: an observation reported at level `pi` gets the columns of a set
with the reported probability, computed by `compute_sdp_reg`, no explored set of smaller size reaches `pi` and none of the same
size has a larger value. -/
theorem C71_single_tree_partial (t : TreeArr) (y : Row → ℚ) (tX : ℚ) (data X : List Row) {cols : Nat}
    (h : SearchArgs cols [[]] (List.range cols)) (h15 : cols ≤ 15) {pi : ℚ} (h0 : 0 < pi) (h1 : pi ≤ 1) (minimal : Nat) (stop : Bool)
    (half : Nat) : ∃ st, importanceSdpReg1 t y tX data X cols [[]] pi minimal stop half = some st ∧
      ∀ i x, X[i]? = some x → pi ≤ (st.best i).sdp →
        Reports ((List.range cols).map ([·])) cols minimal (fun S => (sdpRegCy [t] cols y tX data S [x]).headD 0) pi (st.best i) := by
  have hpl : searchPlayers [[]] (List.range cols) = (List.range cols).map ([·]) := by simp [searchPlayers]
  unfold importanceSdpReg1 globalSdpReg
  rw [levelsRf_eq _ _ (by rw [hpl]; simpa using h15)]
  refine ⟨_, rfl, fun i x hi hpi => ?_⟩
  have hlt : i < X.length := by
    rw [List.getElem?_eq_some_iff] at hi; exact hi.1
  have hget : X.getD i (fun _ => 0) = x := by rw [List.getD_eq_getElem?_getD, hi]; rfl
  rw [batch_best finOk_id (valsOk_map _ X.length) cols pi stop half _ hlt] at hpi ⊢
  rw [hget] at hpi ⊢
  have hr := sample_reports finOk_id (playersOk h) (fun S => globalRegValue t y tX data cols [[]] S x) h0 h1 minimal _ stop half hpi
  have hlen : (searchPlayers [[]] (List.range cols)).length = cols := by rw [hpl]; simp
  unfold globalRegValue at hr ⊢
  rw [hlen] at hr ⊢
  rw [hpl] at hr ⊢
  exact hr

-- column 1 decides the output of the observation (0, 0)
example : ∃ st, importanceSdpReg1 regTree regTreeOut 1 regData [row2 0 0] 2 [[]] (9 / 10) 1 false 2 = some st ∧
    (st.best 0).sdp = 1 ∧ (st.best 0).cols = [1] := by
  refine ⟨_, rfl, by decide +kernel, by decide +kernel⟩

/-! ## Several trees: only the leaves that can be reached matter -/

/-- The tree with other leaf values. -/
def withValues (g : TreeArr → Nat → Nat → ℚ) (t : TreeArr) : TreeArr := { t with value := g t }

theorem withValues_leafIdx (g : TreeArr → Nat → Nat → ℚ) (t : TreeArr) : (withValues g t).leafIdx = t.leafIdx := rfl

theorem withValues_leafNo (g : TreeArr → Nat → Nat → ℚ) (t : TreeArr) (j : Nat) : leafNo (withValues g t) j = leafNo t j := rfl

theorem withValues_leafRect (g : TreeArr → Nat → Nat → ℚ) (t : TreeArr) (ℓ : Nat) : (withValues g t).leafRect ℓ = t.leafRect ℓ := by
  have h : ∀ fuel n part acc, (withValues g t).getPartition fuel n part acc = t.getPartition fuel n part acc := by
    intro fuel
    induction fuel with
    | zero => intros; rfl
    | succ k ih => intro n part acc; simp only [TreeArr.getPartition, ih]; rfl
  unfold TreeArr.leafRect
  rw [h]
  rfl

theorem leafNo_mem {t : TreeArr} {j : Nat} (h : j < t.leafIdx.length) : leafNo t j ∈ t.leafIdx := by
  unfold leafNo
  rw [List.getD_eq_getElem?_getD, List.getElem?_eq_getElem h, Option.getD_some]
  exact List.getElem_mem h

theorem regCells_compatible {ts : List TreeArr} {m : Nat} {S : List Nat} {x : Row} {g : TreeArr → Nat → Nat → ℚ}
    (hg : ∀ t ∈ ts, ∀ ℓ ∈ t.leafIdx, satCC (t.leafRect ℓ) S x = true → g t ℓ 0 = t.value ℓ 0) (fx : ℚ) (rows : List Row) {t : TreeArr}
    (ht : t ∈ ts) (b : Nat) : regCells (ts.map (withValues g)) m S x fx rows (withValues g t) b = regCells ts m S x fx rows t b := by
  unfold regCells
  simp only [List.zipIdx_map, List.map_map]
  congr 1
  · funext j j'
    congr 1
    refine List.map_congr_left fun q hq => ?_
    simp only [Function.comp_apply, Prod.map_fst, Prod.map_snd, id_eq, withValues_leafIdx, withValues_leafNo, withValues_leafRect]
  funext j j'
  congr 1
  refine List.map_congr_left fun q hq => ?_
  have hq' : q.1 ∈ ts := List.fst_mem_of_mem_zipIdx hq
  simp only [Function.comp_apply, Prod.map_fst, Prod.map_snd, id_eq, withValues_leafIdx, withValues_leafNo, withValues_leafRect]
  split
  · split
    · rename_i hj
      split
      · rename_i hs
        rw [show (withValues g t).value (leafNo t j) 0 = t.value (leafNo t j) 0 from hg t ht _ (leafNo_mem hj.2) hs]
      · rfl
    · rfl
  · split
    · rename_i hj
      split
      · rename_i hs
        rw [Bool.and_eq_true] at hs
        rw [show (withValues g t).value (leafNo t j) 0 = t.value (leafNo t j) 0 from hg t ht _ (leafNo_mem hj.1) hs.1,
          show (withValues g q.1).value (leafNo q.1 j') 0 = q.1.value (leafNo q.1 j') 0 from hg q.1 hq' _ (leafNo_mem hj.2) hs.2]
      · rfl
    · rfl

theorem foldl_ext_mem {α β : Type} (f g : β → α → β) (l : List α) (h : ∀ a ∈ l, ∀ b, f b a = g b a) (b : β) : l.foldl f b = l.foldl g b := by
  induction l generalizing b with
  | nil => rfl
  | cons a l ih => rw [List.foldl_cons, List.foldl_cons, h a (by simp), ih fun a' ha' => h a' (by simp [ha'])]

theorem regGroup_compatible {ts : List TreeArr} {m : Nat} {S : List Nat} {x : Row} {g : TreeArr → Nat → Nat → ℚ}
    (hg : ∀ t ∈ ts, ∀ ℓ ∈ t.leafIdx, satCC (t.leafRect ℓ) S x = true → g t ℓ 0 = t.value ℓ 0) (fx : ℚ) (rows : List Row) (norm : Nat → ℚ) :
    regGroup (ts.map (withValues g)) m S x fx rows norm = regGroup ts m S x fx rows norm := by
  unfold regGroup
  rw [List.zipIdx_map, List.foldl_map]
  refine foldl_ext_mem _ _ _ (fun p hp st => ?_) _
  rw [List.foldl_map]
  refine foldl_ext_mem _ _ _ (fun q hq st => ?_) _
  simp only [Prod.map_fst, Prod.map_snd, id_eq, withValues_leafIdx]
  rw [regCells_compatible hg fx rows (List.fst_mem_of_mem_zipIdx hp) p.2]

/-- **C70, unreachable leaves**: with any number of trees, the values of the leaves that the observations cannot reach once the columns of
`S` are known do not matter. -/
theorem C70_unreachable_leaves {ts : List TreeArr} {m : Nat} {S : List Nat} {X : List Row} {g : TreeArr → Nat → Nat → ℚ}
    (hg : ∀ x ∈ X, ∀ t ∈ ts, ∀ ℓ ∈ t.leafIdx, satCC (t.leafRect ℓ) S x = true → g t ℓ 0 = t.value ℓ 0) (y : Row → ℚ) (tX : ℚ)
    (data : List Row) : sdpRegCy (ts.map (withValues g)) m y tX data S X = sdpRegCy ts m y tX data S X := by
  unfold sdpRegCy
  generalize Norms.zero = N
  induction X generalizing N with
  | nil => rfl
  | cons x X ih =>
    have hr : regObs (ts.map (withValues g)) m y tX data S N x = regObs ts m y tX data S N x := by
      unfold regObs
      simp only [regGroup_compatible (hg x (by simp))]
    unfold regLoop
    simp only [hr]
    rw [ih fun x' hx' => hg x' (by simp [hx'])]

/-- Three trees of different sizes: the missing leaves of the smaller trees count for nothing. -/
theorem C70_three_trees :
    sdpRegCy [stumpAt 1 (1 / 2) 0 3, regTree, stumpAt 0 (1 / 2) 2 3] 2 (fun z => regTreeOut z + if z 1 ≤ 1 / 2 then 0 else 3) 1 regData [1]
      [row2 1 1] = [51 / 65] := by decide +kernel

/-- A concrete case: column 1 known, the left leaf of the first stump cannot be reached. -/
example : ∀ x ∈ [row2 1 1], ∀ t ∈ [stumpAt 1 (1 / 2) 0 3], ∀ ℓ ∈ t.leafIdx, satCC (t.leafRect ℓ) [1] x = true →
    (fun (_ : TreeArr) ℓ _ => if ℓ = 2 then (3 : ℚ) else 7) t ℓ 0 = t.value ℓ 0 := by decide +kernel

end Acv
