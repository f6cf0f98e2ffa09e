import Verif.Props.Swing
import Verif.Props.TreeSdp
import Verif.Lemmas.LeafShapPy

/-! # C60: what `ACVTree.swing_sv_clf` adds up -/

namespace Acv

/-- `lo < v <= hi`. -/
def InOpenClosed (i : Ival) (v : ℚ) : Prop := (∀ l, i.lo = some l → l < v) ∧ ∀ h, i.hi = some h → v ≤ h

open Classical in
/-- Weight of a leaf in the direct version: 0 if the leaf does not fit the observation on the coalition and on the added columns; otherwise
the share of the rows of the leaf among the rows with the property `D`. -/
noncomputable def directWeight (m : Nat) (x : Row) (S va : List Nat) (D : Rect → Row → Prop) (rows : List Row) (t : TreeArr) (ℓ : Nat) : ℚ :=
  if (∀ s ∈ S, InClosedIv (t.leafRect ℓ s) (x s)) ∧ ∀ s ∈ va, InOpenClosed (t.leafRect ℓ s) (x s) then
    ((rows.filter fun z => ∀ s < m, InClosedIv (t.leafRect ℓ s) (z s)).length : ℚ) / (rows.filter fun z => D (t.leafRect ℓ) z).length
  else 0

/-- The rows that fit the leaf on the coalition. -/
def FitsS (S : List Nat) (r : Rect) (z : Row) : Prop := ∀ s ∈ S, InClosedIv (r s) (z s)

/-- The rows that fit the leaf on the coalition and on the added columns. -/
def FitsSVa (S va : List Nat) (r : Rect) (z : Row) : Prop := (∀ s ∈ S, InClosedIv (r s) (z s)) ∧ ∀ s ∈ va, InOpenClosed (r s) (z s)

/-- Sum over the trees of the weighted mean score. -/
noncomputable def directMean (ts : List TreeArr) (m k : Nat) (x : Row) (S va : List Nat) (D : Rect → Row → Prop) (rows : List Row) : ℚ :=
  (ts.map fun t => leafMean t k (directWeight m x S va D rows t)).sum

/-- The same decision probability of the direct version. -/
noncomputable def directSdp (ts : List TreeArr) (m : Nat) (lab : Row → Nat) (x : Row) (S va : List Nat) (D : Rect → Row → Prop)
    (data : List Row) : ℚ :=
  let M := directMean ts m (lab x) x S va D
  let up := data.filter fun z => lab z = lab x
  let down := data.filter fun z => lab z ≠ lab x
  (M data - M down) / (M up - M down)

theorem sat_openClosed {r : Rect} {S : List Nat} {z : Row} : sat r S z = true ↔ ∀ s ∈ S, InOpenClosed (r s) (z s) := sat_iff

theorem swingEntry_eq (m : Nat) (rows : List Row) (x : Row) (S va : List Nat) (D : Rect → Row → Prop) (den : Rect → Nat)
    (hden : ∀ r, den r = (rows.filter fun z => @decide (D r z) (Classical.propDecidable _)).length) (t : TreeArr) (ℓ : Nat) (a : ℚ) :
    (if satCC (t.leafRect ℓ) S x && sat (t.leafRect ℓ) va x then
      guardDiv (cntCC rows (t.leafRect ℓ) (List.range m) * a) (den (t.leafRect ℓ)) else 0) = directWeight m x S va D rows t ℓ * a := by
  classical
  unfold directWeight
  by_cases h : (∀ s ∈ S, InClosedIv (t.leafRect ℓ s) (x s)) ∧ ∀ s ∈ va, InOpenClosed (t.leafRect ℓ s) (x s)
  · rw [if_pos h, if_pos (by rw [Bool.and_eq_true, satCC_iff, sat_openClosed]; exact h), guardDiv_eq, cntCC_rows, hden]
    simp only [List.mem_range]
    ring
  · rw [if_neg h, if_neg (by rw [Bool.and_eq_true, satCC_iff, sat_openClosed]; exact h), zero_mul]

theorem sum_flatMap_map {α β : Type} (l : List α) (g : α → List β) (f : α → β → ℚ) :
    (l.flatMap fun a => (g a).map (f a)).sum = (l.map fun a => ((g a).map (f a)).sum).sum := by
  induction l with
  | nil => rfl
  | cons a l ih => rw [List.flatMap_cons, List.sum_append, ih, List.map_cons, List.sum_cons]

theorem swingMean_eq {ts : List TreeArr} {m : Nat} (k : Nat) {rows : List Row} {x : Row} {S va : List Nat} {D : Rect → Row → Prop}
    {den : Rect → Nat} (hden : ∀ r, den r = (rows.filter fun z => @decide (D r z) (Classical.propDecidable _)).length)
    {guard : TreeArr → ℚ → Bool} (hg : ∀ t ∈ ts, guard t (t.leafIdx.map (directWeight m x S va D rows t)).sum = true)
    (hn : ∀ t ∈ ts, (t.leafIdx.map (directWeight m x S va D rows t)).sum ≠ 0) :
    swingMean ts m k rows x S va den guard = some (directMean ts m k x S va D rows) := by
  unfold swingMean
  have hE : ∀ (t : TreeArr) (ℓ : Nat), (if satCC (t.leafRect ℓ) S x && sat (t.leafRect ℓ) va x then
      guardDiv (cntCC rows (t.leafRect ℓ) (List.range m)) (den (t.leafRect ℓ)) else 0) = directWeight m x S va D rows t ℓ := by
    intro t ℓ
    have := swingEntry_eq m rows x S va D den hden t ℓ 1
    rwa [mul_one, mul_one] at this
  have hE' : ∀ t : TreeArr, (t.leafIdx.map fun ℓ => if satCC (t.leafRect ℓ) S x && sat (t.leafRect ℓ) va x then
      guardDiv (cntCC rows (t.leafRect ℓ) (List.range m)) (den (t.leafRect ℓ)) else 0) = t.leafIdx.map (directWeight m x S va D rows t) :=
    fun t => List.map_congr_left fun ℓ _ => hE t ℓ
  simp only [mul_one, swingEntry_eq m rows x S va D den hden, hE']
  have : (ts.flatMap fun t => t.leafIdx.map fun ℓ =>
      if guard t (t.leafIdx.map (directWeight m x S va D rows t)).sum then
        npDiv (directWeight m x S va D rows t ℓ * t.value ℓ k) (t.leafIdx.map (directWeight m x S va D rows t)).sum else some 0) =
      (ts.flatMap fun t => t.leafIdx.map fun ℓ =>
        directWeight m x S va D rows t ℓ * t.value ℓ k / (t.leafIdx.map (directWeight m x S va D rows t)).sum).map some := by
    rw [List.map_flatMap]
    apply List.flatMap_congr
    intro t ht
    rw [List.map_map]
    apply List.map_congr_left
    intro ℓ _
    rw [if_pos (hg t ht)]
    unfold npDiv
    rw [if_neg (hn t ht)]
    rfl
  rw [this, osum_some, sum_flatMap_map]
  congr 2
  apply List.map_congr_left
  intro t _
  unfold leafMean
  simp only [div_eq_mul_inv]
  rw [List.sum_map_mul_right]

theorem den_S (rows : List Row) (S : List Nat) (r : Rect) :
    cntCC rows r S = (rows.filter fun z => @decide (FitsS S r z) (Classical.propDecidable _)).length := by
  classical
  rw [cntCC_rows]
  congr 1
  exact List.filter_congr fun z _ => decide_eq_decide.2 Iff.rfl

theorem den_SVa (rows : List Row) (S va : List Nat) (r : Rect) :
    cntWith rows r S va = (rows.filter fun z => @decide (FitsSVa S va r z) (Classical.propDecidable _)).length := by
  classical
  unfold cntWith
  congr 1
  apply List.filter_congr
  intro z _
  rw [Bool.eq_iff_iff, decide_eq_true_eq, Bool.and_eq_true, satCC_iff, sat_openClosed]
  rfl

theorem swingRatio_some (a u d : ℚ) : swingRatio (some a) (some u) (some d) = some ((a - d) / (u - d)) := by
  unfold swingRatio
  by_cases h : u - d ≠ 0
  · simp [h]
  · rw [not_not] at h; simp [h]

theorem swingSign_eq (thr p q : ℚ) : swingSign thr (some p) (some q) = (if thr ≤ q then 1 else 0) - (if thr ≤ p then 1 else 0) := by
  unfold swingSign
  by_cases h1 : thr ≤ p <;> by_cases h2 : thr ≤ q
  · simp [h1, h2, not_lt.2 h1, not_lt.2 h2]
  · simp [h1, h2, not_lt.2 h1]
  · simp [h1, h2, not_le.1 h1, not_lt.2 h2]
  · simp [h1, h2, not_le.1 h1, not_le.1 h2]

/-- **C60, direct version: the steps.** What `ACVTree.swing_sv_clf` adds for the columns `va` joining a coalition `S` that is not empty
and does not become everybody, when all sums of weights are different from 0: 1 if the probability reaches the threshold with `va` and
does not without, -1 in the opposite case, 0 otherwise. Both probabilities are computed on the leaves that fit the observation on `S`
*and* `va`, which is why these steps do not add up to a game (`C60_direct_false`). -/
theorem C60_direct_value (junk : ℚ × ℚ × ℚ) (ts : List TreeArr) {m : Nat} (lab : Row → Nat) (data : List Row) (thr : ℚ) (x : Row)
    {S va : List Nat} (hS : S ≠ []) (hall : S.length + va.length ≠ m)
    (hpos : ∀ rows ∈ [data, data.filter fun z => lab z = lab x, data.filter fun z => lab z ≠ lab x], ∀ t ∈ ts,
      (t.leafIdx.map (directWeight m x S va (FitsS S) rows t)).sum ≠ 0 ∧ (t.leafIdx.map (directWeight m x S va (FitsSVa S va) rows t)).sum ≠ 0) :
    swingDiff junk ts m lab data thr x S va =
      (if thr ≤ directSdp ts m lab x S va (FitsSVa S va) data then 1 else 0) -
      (if thr ≤ directSdp ts m lab x S va (FitsS S) data then 1 else 0) := by
  have hl : ¬ S.length = 0 := by simpa using hS
  have e1 : (data.filter fun z => decide (lab x = lab z)) = data.filter fun z => lab z = lab x :=
    List.filter_congr fun z _ => decide_eq_decide.2 eq_comm
  have e2 : (data.filter fun z => decide (¬ lab x = lab z)) = data.filter fun z => lab z ≠ lab x :=
    List.filter_congr fun z _ => decide_eq_decide.2 (not_congr eq_comm)
  unfold swingDiff
  simp only [if_neg hl, hall, and_false, if_false]
  rw [e1, e2]
  have hw : ∀ rows ∈ [data, data.filter fun z => lab z = lab x, data.filter fun z => lab z ≠ lab x],
      swingMean ts m (lab x) rows x S va (fun r => cntCC rows r S) (fun _ n => decide (n ≠ 0)) =
        some (directMean ts m (lab x) x S va (FitsS S) rows) := fun rows hr =>
    swingMean_eq (lab x) (den_S rows S) (fun t ht => by simpa using (hpos rows hr t ht).1) (fun t ht => (hpos rows hr t ht).1)
  have hc : ∀ (rows : List Row) (t : TreeArr), (t.leafIdx.map fun ℓ =>
      if satCC (t.leafRect ℓ) S x && sat (t.leafRect ℓ) va x then
        guardDiv (cntCC rows (t.leafRect ℓ) (List.range m)) (cntCC rows (t.leafRect ℓ) S) else 0).sum =
      (t.leafIdx.map (directWeight m x S va (FitsS S) rows t)).sum := by
    intro rows t
    congr 1
    apply List.map_congr_left
    intro ℓ _
    have := swingEntry_eq m rows x S va (FitsS S) (fun r => cntCC rows r S) (den_S rows S) t ℓ 1
    rw [mul_one, mul_one] at this
    exact this
  have hv : ∀ rows ∈ [data, data.filter fun z => lab z = lab x, data.filter fun z => lab z ≠ lab x],
      swingMean ts m (lab x) rows x S va (fun r => cntWith rows r S va) (fun t _ => decide ((t.leafIdx.map fun ℓ =>
        if satCC (t.leafRect ℓ) S x && sat (t.leafRect ℓ) va x then
          guardDiv (cntCC rows (t.leafRect ℓ) (List.range m)) (cntCC rows (t.leafRect ℓ) S) else 0).sum ≠ 0)) =
        some (directMean ts m (lab x) x S va (FitsSVa S va) rows) := fun rows hr =>
    swingMean_eq (lab x) (den_SVa rows S va) (fun t ht => by rw [hc]; simpa using (hpos rows hr t ht).1)
      (fun t ht => (hpos rows hr t ht).2)
  rw [hw _ (by simp), hw _ (by simp), hw _ (by simp), hv _ (by simp), hv _ (by simp), hv _ (by simp), swingRatio_some, swingRatio_some,
    swingSign_eq]
  rfl

/-- **C60, direct version: the last step.** When a non-empty coalition becomes everybody its probability counts as 1. -/
theorem C60_direct_last_value (junk : ℚ × ℚ × ℚ) (ts : List TreeArr) {m : Nat} (lab : Row → Nat) (data : List Row) {thr : ℚ} (hthr : thr ≤ 1)
    (x : Row) {S va : List Nat} (hS : S ≠ []) (hall : S.length + va.length = m)
    (hpos : ∀ rows ∈ [data, data.filter fun z => lab z = lab x, data.filter fun z => lab z ≠ lab x], ∀ t ∈ ts,
      (t.leafIdx.map (directWeight m x S va (FitsS S) rows t)).sum ≠ 0) :
    swingDiff junk ts m lab data thr x S va = if thr ≤ directSdp ts m lab x S va (FitsS S) data then 0 else 1 := by
  have hl : ¬ S.length = 0 := by simpa using hS
  have e1 : (data.filter fun z => decide (lab x = lab z)) = data.filter fun z => lab z = lab x :=
    List.filter_congr fun z _ => decide_eq_decide.2 eq_comm
  have e2 : (data.filter fun z => decide (¬ lab x = lab z)) = data.filter fun z => lab z ≠ lab x :=
    List.filter_congr fun z _ => decide_eq_decide.2 (not_congr eq_comm)
  unfold swingDiff
  simp only [if_neg hl, hall, ne_eq, hl, not_false_eq_true, true_and, if_true]
  rw [e1, e2]
  have hw : ∀ rows ∈ [data, data.filter fun z => lab z = lab x, data.filter fun z => lab z ≠ lab x],
      swingMean ts m (lab x) rows x S va (fun r => cntCC rows r S) (fun _ n => decide (n ≠ 0)) =
        some (directMean ts m (lab x) x S va (FitsS S) rows) := fun rows hr =>
    swingMean_eq (lab x) (den_S rows S) (fun t ht => by simpa using hpos rows hr t ht) (fun t ht => hpos rows hr t ht)
  simp only [ne_eq] at hw
  rw [hw _ (by simp), hw _ (by simp), hw (data.filter fun z => lab z ≠ lab x) (by simp), swingRatio_some, if_neg (by simp), swingSign_eq, if_pos hthr]
  change 1 - (if thr ≤ directSdp ts m lab x S va (FitsS S) data then (1 : ℚ) else 0) = _
  split <;> simp

/-- A tree that looks at columns 1 and 2: class 1 has the score 1 when both are at most 1/2. -/
def exCorner : TreeArr where
  size := 5
  left := fun n => [1, 3, -1, -1, -1].getD n (-1)
  right := fun n => [2, 4, -1, -1, -1].getD n (-1)
  dflt := fun n => [1, 3, -1, -1, -1].getD n (-1)
  feature := fun n => [1, 2, -2, -2, -2].getD n (-2)
  threshold := fun n => [1 / 2, 1 / 2].getD n 0
  value := fun n k => if k = 1 then [0, 0, 0, 1, 0].getD n 0 else [0, 0, 1, 0, 1].getD n 0
  weight := fun n => [4, 2, 2, 1, 1].getD n 0

/-- The class the tree predicts. -/
def exCornerLab (z : Row) : Nat := if z 1 ≤ 1 / 2 ∧ z 2 ≤ 1 / 2 then 1 else 0

/-- One row in each of the leaves 3 and 4, two rows in the leaf 2. -/
def exCornerData : List Row := [fun _ => 0, fun j => if j = 2 then 1 else 0, fun j => if j = 1 then 1 else 0, fun _ => 1]

theorem directWeight_cc (m : Nat) (x : Row) (S va : List Nat) (rows : List Row) (t : TreeArr) (ℓ : Nat) :
    directWeight m x S va (FitsS S) rows t ℓ = if satCC (t.leafRect ℓ) S x && sat (t.leafRect ℓ) va x then
      guardDiv (cntCC rows (t.leafRect ℓ) (List.range m) * 1) (cntCC rows (t.leafRect ℓ) S) else 0 := by
  rw [swingEntry_eq m rows x S va (FitsS S) (fun r => cntCC rows r S) (den_S rows S) t ℓ 1, mul_one]

theorem directWeight_with (m : Nat) (x : Row) (S va : List Nat) (rows : List Row) (t : TreeArr) (ℓ : Nat) :
    directWeight m x S va (FitsSVa S va) rows t ℓ = if satCC (t.leafRect ℓ) S x && sat (t.leafRect ℓ) va x then
      guardDiv (cntCC rows (t.leafRect ℓ) (List.range m) * 1) (cntWith rows (t.leafRect ℓ) S va) else 0 := by
  rw [swingEntry_eq m rows x S va (FitsSVa S va) (fun r => cntWith rows r S va) (den_SVa rows S va) t ℓ 1, mul_one]

/-- The hypotheses hold for a tree and data where the step is 1. -/
example : swingDiff (0, 0, 0) [exCorner] 3 exCornerLab exCornerData (2 / 5) (fun _ => 0) [0] [2] = 1 ∧
    ∀ rows ∈ [exCornerData, exCornerData.filter fun z => exCornerLab z = exCornerLab (fun _ => 0),
      exCornerData.filter fun z => exCornerLab z ≠ exCornerLab (fun _ => 0)], ∀ t ∈ [exCorner],
      (t.leafIdx.map (directWeight 3 (fun _ => 0) [0] [2] (FitsS [0]) rows t)).sum ≠ 0 ∧
      (t.leafIdx.map (directWeight 3 (fun _ => 0) [0] [2] (FitsSVa [0] [2]) rows t)).sum ≠ 0 := by
  have h1 := fun (rows : List Row) (t : TreeArr) => (List.map_congr_left fun ℓ _ => directWeight_cc 3 (fun _ => 0) [0] [2] rows t ℓ :
    t.leafIdx.map (directWeight 3 (fun _ => 0) [0] [2] (FitsS [0]) rows t) = _)
  have h2 := fun (rows : List Row) (t : TreeArr) => (List.map_congr_left fun ℓ _ => directWeight_with 3 (fun _ => 0) [0] [2] rows t ℓ :
    t.leafIdx.map (directWeight 3 (fun _ => 0) [0] [2] (FitsSVa [0] [2]) rows t) = _)
  simp only [h1, h2]
  decide +kernel

/-- **C60, direct version: the first step.** For the empty coalition the three guards are variables that were never set: with non-zero
contents the step is 1 exactly when the probability of `va` alone reaches the (positive) threshold, with zero contents it is 0. -/
theorem C60_direct_first_value {junk : ℚ × ℚ × ℚ} (ts : List TreeArr) {m : Nat} (lab : Row → Nat) (data : List Row) {thr : ℚ}
    (hthr : 0 < thr) (x : Row) (va : List Nat) :
    (junk.1 ≠ 0 ∧ junk.2.1 ≠ 0 ∧ junk.2.2 ≠ 0 →
      (∀ rows ∈ [data, data.filter fun z => lab z = lab x, data.filter fun z => lab z ≠ lab x], ∀ t ∈ ts,
        (t.leafIdx.map (directWeight m x [] va (FitsSVa [] va) rows t)).sum ≠ 0) →
      swingDiff junk ts m lab data thr x [] va = if thr ≤ directSdp ts m lab x [] va (FitsSVa [] va) data then 1 else 0) ∧
    (junk = (0, 0, 0) → swingDiff junk ts m lab data thr x [] va = 0) := by
  have e1 : (data.filter fun z => decide (lab x = lab z)) = data.filter fun z => lab z = lab x :=
    List.filter_congr fun z _ => decide_eq_decide.2 eq_comm
  have e2 : (data.filter fun z => decide (¬ lab x = lab z)) = data.filter fun z => lab z ≠ lab x :=
    List.filter_congr fun z _ => decide_eq_decide.2 (not_congr eq_comm)
  have h0 : ¬ thr ≤ 0 := not_le.2 hthr
  constructor
  · rintro ⟨j1, j2, j3⟩ hpos
    have hv : ∀ rows ∈ [data, data.filter fun z => lab z = lab x, data.filter fun z => lab z ≠ lab x], ∀ j : ℚ, j ≠ 0 →
        swingMean ts m (lab x) rows x [] va (fun r => cntWith rows r [] va) (fun _ _ => decide (j ≠ 0)) =
          some (directMean ts m (lab x) x [] va (FitsSVa [] va) rows) := fun rows hr j hj =>
      swingMean_eq (lab x) (den_SVa rows [] va) (fun t ht => by simpa using hj) (fun t ht => hpos rows hr t ht)
    unfold swingDiff
    simp only [List.length_nil, if_true, ne_eq, not_true_eq_false, false_and, if_false]
    simp only [ne_eq] at hv
    rw [e1, e2, hv _ (by simp) _ j1, hv _ (by simp) _ j2]
    rw [hv (data.filter fun z => lab z ≠ lab x) (by simp) _ j3, swingRatio_some, swingSign_eq, if_neg h0, sub_zero]
    rfl
  · rintro rfl
    have hz : ∀ rows : List Row, swingMean ts m (lab x) rows x [] va (fun r => cntWith rows r [] va) (fun _ _ => decide ((0 : ℚ) ≠ 0)) = some 0 := by
      intro rows
      unfold swingMean
      simp only [ne_eq, not_true_eq_false, decide_false, Bool.false_eq_true, if_false]
      have : (ts.flatMap fun t => t.leafIdx.map fun _ => (some 0 : Option ℚ)) =
          (ts.flatMap fun t => t.leafIdx.map fun _ => (0 : ℚ)).map some := by
        rw [List.map_flatMap]; simp
      rw [this, osum_some, sum_flatMap_map]
      simp
    unfold swingDiff
    simp only [List.length_nil, if_true, ne_eq, not_true_eq_false, false_and, if_false]
    simp only [ne_eq, not_true_eq_false] at hz
    rw [hz, hz, hz, swingRatio_some, swingSign_eq]
    simp [h0]

/-- **C60, direct version: range.** Whatever memory holds, every step is -1, 0 or 1. -/
theorem C60_direct_steps (junk : ℚ × ℚ × ℚ) (ts : List TreeArr) (m : Nat) (lab : Row → Nat) (data : List Row) (thr : ℚ) (x : Row)
    (S va : List Nat) : swingDiff junk ts m lab data thr x S va = -1 ∨ swingDiff junk ts m lab data thr x S va = 0 ∨
      swingDiff junk ts m lab data thr x S va = 1 := by
  unfold swingDiff
  simp only
  generalize swingRatio _ _ _ = a
  generalize (if S.length ≠ 0 ∧ S.length + va.length = m then some 1 else _ : Option ℚ) = b
  generalize (if S.length = 0 then some 0 else a : Option ℚ) = c
  cases c with
  | none => exact Or.inr (Or.inl rfl)
  | some c =>
    cases b with
    | none => exact Or.inr (Or.inl rfl)
    | some b =>
      rw [swingSign_eq]
      split <;> split <;> norm_num

end Acv
