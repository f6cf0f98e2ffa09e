import Verif.Model.RoundedSdp
import Verif.Props.Rounded
import Verif.Props.Projected
import Verif.Props.Search

/-!
# C104: the probabilities of the projected forest in double precision
-/

namespace Acv

theorem cellSumRnd_flat (rnd : ℚ → ℚ) (cells : List (List Nat)) (term : ℚ → Nat → ℚ) :
    cellSumRnd rnd cells term = (cells.flatMap fun c => c.map fun i => (c.length, i)).foldl
      (fun s p => rnd (s + term (cellWeightRnd rnd cells.length p.1) p.2)) 0 := by
  unfold cellSumRnd
  rw [List.foldl_flatMap]
  congr 1
  funext s c
  rw [List.foldl_map]

theorem cellSum_flat (cells : List (List Nat)) (f : Nat → ℚ) :
    cellSum cells f = ((cells.flatMap fun c => c.map fun i => (c.length, i)).map fun p => 1 / ((cells.length : ℚ) * p.1) * f p.2).sum := by
  unfold cellSum
  generalize (cells.length : ℚ) = n
  induction cells with
  | nil => rfl
  | cons c cells ih =>
    rw [List.map_cons, List.sum_cons, ih, List.flatMap_cons, List.map_append, List.sum_append, List.map_map]
    rfl

/-- The number of additions. -/
theorem flat_length (N : Nat) : ∀ (cells : List (List Nat)), (∀ c ∈ cells, c.length ≤ N) →
    (cells.flatMap fun c => c.map fun i => (c.length, i)).length ≤ cells.length * N
  | [], _ => by simp
  | c :: cells, h => by
    rw [List.flatMap_cons, List.length_append, List.length_map, List.length_cons, Nat.succ_mul]
    have h1 := flat_length N cells fun c' hc' => h c' (by simp [hc'])
    have h2 := h c (by simp)
    omega

theorem cellWeight_approx {rnd : ℚ → ℚ} {u : ℚ} (hr : RelErr rnd u) (hu : 0 ≤ u) (hk : KeepsIntegers rnd) {trees size : Nat}
    (h : trees * size ≤ 2 ^ 53) : Approx u 1 (1 / ((trees : ℚ) * size)) (1 / ((trees : ℚ) * size)) (cellWeightRnd rnd trees size) := by
  unfold cellWeightRnd
  rw [hk _ h]
  push_cast
  exact (Approx.exact hu 0 (by rw [abs_of_nonneg (by positivity)])).rnd hr hu

/-- The general bound: if the term of a row is its exact value up to `e` roundings, the sum is the exact one up to `e + trees * N` roundings of the sum of
the absolute values. -/
theorem cellSumRnd_approx {rnd : ℚ → ℚ} {u : ℚ} (hr : RelErr rnd u) (hu : 0 ≤ u) {cells : List (List Nat)} {N : Nat}
    (hN : ∀ c ∈ cells, c.length ≤ N) {term : ℚ → Nat → ℚ} {f : Nat → ℚ} {e : Nat}
    (ht : ∀ c ∈ cells, ∀ i, Approx u e (1 / ((cells.length : ℚ) * c.length) * |f i|) (1 / ((cells.length : ℚ) * c.length) * f i)
      (term (cellWeightRnd rnd cells.length c.length) i)) :
    Approx u (e + cells.length * N) (cellSum cells fun i => |f i|) (cellSum cells f) (cellSumRnd rnd cells term) := by
  rw [cellSumRnd_flat, cellSum_flat, cellSum_flat]
  have h := Approx.foldl hr hu (fun p : Nat × Nat => 1 / ((cells.length : ℚ) * p.1) * |f p.2|)
    (fun p => 1 / ((cells.length : ℚ) * p.1) * f p.2) (fun p => term (cellWeightRnd rnd cells.length p.1) p.2)
    (cells.flatMap fun c => c.map fun i => (c.length, i)) e 0 0 0 (Approx.exact hu e (by simp)) (by
      intro p hp
      obtain ⟨c, hc, hp⟩ := List.mem_flatMap.mp hp
      obtain ⟨i, _, rfl⟩ := List.mem_map.mp hp
      exact ht c hc i)
  rw [zero_add, zero_add] at h
  exact h.mono hu (by have := flat_length N cells hN; omega) (le_refl _)

theorem cellsSet_facts (mems : List Mem) (S : List Nat) (x : Row) (data : Nat → Row) (minSize maxDepth N : Nat) :
    (cellsSet mems S x data minSize maxDepth N).length = mems.length ∧ (∀ c ∈ cellsSet mems S x data minSize maxDepth N, c.length ≤ N) ∧
    (cellsVec mems S x data minSize maxDepth N).length = mems.length ∧ ∀ c ∈ cellsVec mems S x data minSize maxDepth N, c.length ≤ N := by
  refine ⟨forestRun_length _ _, fun c hc => ?_, forestRun_length _ _, fun c hc => ?_⟩ <;>
  · have := (forestRun_sublist hc).length_le
    simpa using this

theorem Approx.mul_ind {rnd : ℚ → ℚ} {u : ℚ} (hr : RelErr rnd u) (hu : 0 ≤ u) {e : Nat} {a x y : ℚ} (h : Approx u e a x y) (f : ℚ) :
    Approx u (e + 1) (a * |f|) (x * f) (rnd (y * f)) := by
  have := (h.mul hu (Approx.exact hu 0 (le_refl |f|))).rnd hr hu
  simpa using this

theorem ind_abs (b : Bool) : |ind b| = ind b := abs_of_nonneg (ind_range b).1

theorem abs_ddpTerm (classifier : Bool) (yx : ℚ) (t : ℚ × ℚ) (v : ℚ) :
    |if classifier then ind (decide (yx ≠ v)) else 1 - ind (decide (t.1 ≤ v)) * ind (decide (v ≤ t.2))| =
      if classifier then ind (decide (yx ≠ v)) else 1 - ind (decide (t.1 ≤ v)) * ind (decide (v ≤ t.2)) := by
  apply abs_of_nonneg
  split
  · exact (ind_range _).1
  · have h1 := ind_range (decide (t.1 ≤ v))
    have h2 := ind_range (decide (v ≤ t.2))
    nlinarith

section
variable {rnd : ℚ → ℚ} {u : ℚ} (hr : RelErr rnd u) (hu : 0 ≤ u) (hk : KeepsIntegers rnd) (mems : List Mem) (S : List Nat) (x : Row) (yx : ℚ)
  (data : Nat → Row) (y : Nat → ℚ) (minSize maxDepth : Nat) {N : Nat} (hN : mems.length * N ≤ 2 ^ 53) (classifier : Bool) (t : ℚ × ℚ)
include hr hu hk hN

/-- **C104, SDP and DDP.** With a rounding of relative error `u` after every operation, the same decision probability and the different decision probability
have a relative error of at most `(1 + u) ^ (trees * rows + 3) - 1`. -/
theorem C104_sdp :
    |sdpRfRnd rnd mems S x yx data y minSize maxDepth N classifier t - sdpRf mems S x yx data y minSize maxDepth N classifier t| ≤
      ((1 + u) ^ (mems.length * N + 3) - 1) * sdpRf mems S x yx data y minSize maxDepth N classifier t ∧
    |ddpRfRnd rnd mems S x yx data y minSize maxDepth N classifier t - ddpRf mems S x yx data y minSize maxDepth N classifier t| ≤
      ((1 + u) ^ (mems.length * N + 3) - 1) * ddpRf mems S x yx data y minSize maxDepth N classifier t := by
  obtain ⟨hl, hc, -, -⟩ := cellsSet_facts mems S x data minSize maxDepth N
  have hw : ∀ c ∈ cellsSet mems S x data minSize maxDepth N, Approx u 1 (1 / (((cellsSet mems S x data minSize maxDepth N).length : ℚ) * c.length))
      (1 / (((cellsSet mems S x data minSize maxDepth N).length : ℚ) * c.length))
      (cellWeightRnd rnd (cellsSet mems S x data minSize maxDepth N).length c.length) := fun c h =>
    cellWeight_approx hr hu hk (le_trans (by rw [hl]; exact Nat.mul_le_mul_left _ (hc c h)) hN)
  constructor
  · have h := cellSumRnd_approx hr hu (e := 3) hc (f := fun i => ind (sameDec classifier yx t (y i)))
      (term := fun w i => if classifier then rnd (w * ind (decide (yx = y i))) else
        rnd (rnd (w * ind (decide (t.1 ≤ y i))) * ind (decide (y i ≤ t.2)))) (by
      intro c hcc i
      cases classifier
      · have h1 := ((hw c hcc).mul_ind hr hu (ind (decide (t.1 ≤ y i)))).mul_ind hr hu (ind (decide (y i ≤ t.2)))
        have e1 : ind (sameDec false yx t (y i)) = ind (decide (t.1 ≤ y i)) * ind (decide (y i ≤ t.2)) := by
          by_cases a : t.1 ≤ y i <;> by_cases b : y i ≤ t.2 <;> simp [sameDec, ind, a, b]
        simp only [Bool.false_eq_true, if_false]
        rw [e1, abs_mul, ← mul_assoc, ← mul_assoc]
        exact h1
      · have h1 := (hw c hcc).mul_ind hr hu (ind (decide (yx = y i)))
        simp only [if_true, sameDec]
        exact h1.mono hu (by omega) (le_refl _))
    simp only [ind_abs] at h
    rw [hl, Nat.add_comm] at h
    exact h.2
  · have h := cellSumRnd_approx hr hu (e := 3) hc
      (f := fun i => if classifier then ind (decide (yx ≠ y i)) else 1 - ind (decide (t.1 ≤ y i)) * ind (decide (y i ≤ t.2)))
      (term := fun w i => rnd (w * if classifier then ind (decide (yx ≠ y i)) else 1 - ind (decide (t.1 ≤ y i)) * ind (decide (y i ≤ t.2)))) (by
      intro c hcc i
      exact ((hw c hcc).mul_ind hr hu _).mono hu (by omega) (le_refl _))
    simp only [abs_ddpTerm] at h
    rw [hl, Nat.add_comm] at h
    exact h.2

/-- **C104, expectation.** The error of the conditional expectation is at most `(1 + u) ^ (trees * rows + 2) - 1` times the conditional expectation of the
absolute outputs. -/
theorem C104_exp :
    |expRfRnd rnd mems S x data y minSize maxDepth N - expRf mems S x data y minSize maxDepth N| ≤
      ((1 + u) ^ (mems.length * N + 2) - 1) * expRf mems S x data (fun i => |y i|) minSize maxDepth N := by
  obtain ⟨hl, hc, -, -⟩ := cellsSet_facts mems S x data minSize maxDepth N
  have h := cellSumRnd_approx hr hu (e := 2) hc (f := y) (term := fun w i => rnd (w * y i)) (by
    intro c hcc i
    exact (cellWeight_approx hr hu hk (le_trans (by rw [hl]; exact Nat.mul_le_mul_left _ (hc c hcc)) hN)).mul_ind hr hu _)
  rw [hl, Nat.add_comm] at h
  exact h.2

/-- **C104, distribution function**: relative error as for the SDP. -/
theorem C104_cdf (s : ℚ) :
    |cdfRfRnd rnd mems S x data y minSize maxDepth N s - cdfRf mems S x data y minSize maxDepth N s| ≤
      ((1 + u) ^ (mems.length * N + 2) - 1) * cdfRf mems S x data y minSize maxDepth N s := by
  obtain ⟨-, -, hl, hc⟩ := cellsSet_facts mems S x data minSize maxDepth N
  have h := cellSumRnd_approx hr hu (e := 2) hc (f := fun i => ind (decide (y i ≤ s))) (term := fun w i => rnd (w * ind (decide (y i ≤ s)))) (by
    intro c hcc i
    exact (cellWeight_approx hr hu hk (le_trans (by rw [hl]; exact Nat.mul_le_mul_left _ (hc c hcc)) hN)).mul_ind hr hu _)
  simp only [ind_abs] at h
  rw [hl, Nat.add_comm] at h
  exact h.2

end

/-! ## Weights -/

theorem foldl_if_eq {α β : Type} (i : α) [DecidableEq α] (g : β → β) : ∀ (c : List α) (s : β), c.Nodup →
    c.foldl (fun s j => if j = i then g s else s) s = if i ∈ c then g s else s
  | [], s, _ => by simp
  | j :: c, s, h => by
    rw [List.nodup_cons] at h
    rw [List.foldl_cons, foldl_if_eq i g c _ h.2]
    by_cases e : j = i
    · subst e
      simp [h.1]
    · simp [e, Ne.symm e]

theorem foldl_filter_if {α β : Type} (P : α → Prop) [DecidablePred P] (g : β → α → β) : ∀ (l : List α) (s : β),
    l.foldl (fun s c => if P c then g s c else s) s = (l.filter fun c => decide (P c)).foldl g s
  | [], _ => rfl
  | c :: l, s => by
    rw [List.foldl_cons, foldl_filter_if P g l, List.filter_cons]
    by_cases h : P c <;> simp [h]

/-- **C104, weights.** The weight of every row in the rule of an observation has a relative error of at most `(1 + u) ^ (trees + 1) - 1`. -/
theorem C104_weights {rnd : ℚ → ℚ} {u : ℚ} (hr : RelErr rnd u) (hu : 0 ≤ u) (hk : KeepsIntegers rnd) (mems : List Mem) (S : List Nat) (x : Row)
    (data : Nat → Row) (minSize maxDepth : Nat) {N : Nat} (hN : mems.length * N ≤ 2 ^ 53) (i : Nat) :
    |ruleWeightsRnd rnd mems S x data minSize maxDepth N i - ruleWeights mems S x data minSize maxDepth N i| ≤
      ((1 + u) ^ (mems.length + 1) - 1) * ruleWeights mems S x data minSize maxDepth N i := by
  obtain ⟨hl, hc, -, -⟩ := cellsSet_facts mems S x data minSize maxDepth N
  have hnd : ∀ c ∈ cellsSet mems S x data minSize maxDepth N, c.Nodup := fun c h => (forestRun_sublist h).nodup List.nodup_range
  unfold ruleWeightsRnd ruleWeights
  simp only
  generalize hT : cellsSet mems S x data minSize maxDepth N = cells at *
  have e1 : ∀ (l : List (List Nat)), (∀ c ∈ l, c.Nodup) → ∀ s : ℚ,
      l.foldl (fun s c => c.foldl (fun s j => if j = i then rnd (s + cellWeightRnd rnd cells.length c.length) else s) s) s =
        (l.filter fun c => decide (i ∈ c)).foldl (fun s c => rnd (s + cellWeightRnd rnd cells.length c.length)) s := by
    intro l hl s
    rw [← foldl_filter_if (fun c : List Nat => i ∈ c) (fun s c => rnd (s + cellWeightRnd rnd cells.length c.length))]
    apply List.foldl_ext
    intro s c hc
    exact foldl_if_eq i (fun s => rnd (s + cellWeightRnd rnd cells.length c.length)) c s (hl c hc)
  have e2 : ∀ (l : List (List Nat)), (∀ c ∈ l, c.Nodup) → (l.map fun c => (c.count i : ℚ) * (1 / ((cells.length : ℚ) * c.length))).sum =
      ((l.filter fun c => decide (i ∈ c)).map fun c => 1 / ((cells.length : ℚ) * c.length)).sum := by
    intro l
    induction l with
    | nil => intro _; rfl
    | cons c l ih =>
      intro h
      rw [List.map_cons, List.sum_cons, ih fun c' hc' => h c' (by simp [hc']), List.filter_cons]
      have hcn := h c (by simp)
      by_cases hi : i ∈ c
      · simp [hi, List.count_eq_one_of_mem hcn hi]
      · simp [hi, List.count_eq_zero_of_not_mem hi]
  rw [e1 cells hnd, e2 cells hnd]
  have h := Approx.foldl hr hu (fun c : List Nat => 1 / ((cells.length : ℚ) * c.length)) (fun c => 1 / ((cells.length : ℚ) * c.length))
    (fun c => cellWeightRnd rnd cells.length c.length) (cells.filter fun c => decide (i ∈ c)) 1 0 0 0 (Approx.exact hu 1 (by simp)) (by
      intro c hcc
      have hcm := (List.mem_filter.mp hcc).1
      exact cellWeight_approx hr hu hk (le_trans (by rw [hl]; exact Nat.mul_le_mul_left _ (hc c hcm)) hN))
  simp only [zero_add] at h
  have hlen : (cells.filter fun c => decide (i ∈ c)).length ≤ mems.length := by
    rw [← hl]
    exact List.length_filter_le _ _
  exact (h.mono hu (show _ ≤ mems.length + 1 by omega) (le_refl _)).2

/-! ## Exact arithmetic is an instance -/

theorem cellSumRnd_id (cells : List (List Nat)) (f : Nat → ℚ) : cellSumRnd id cells (fun w i => w * f i) = cellSum cells f := by
  rw [cellSumRnd_flat, cellSum_flat]
  have h := foldl_add_rat (fun p : Nat × Nat => 1 / ((cells.length : ℚ) * p.1) * f p.2) (cells.flatMap fun c => c.map fun i => (c.length, i)) 0
  rw [zero_add] at h
  rw [← h]
  congr 1
  funext s p
  simp [cellWeightRnd]

/-- **C104**: without rounding, the functions are those of C21 and C28. -/
theorem C104_exact (mems : List Mem) (S : List Nat) (x : Row) (yx : ℚ) (data : Nat → Row) (y : Nat → ℚ) (minSize maxDepth N : Nat) (classifier : Bool)
    (t : ℚ × ℚ) (s : ℚ) (i : Nat) :
    sdpRfRnd id mems S x yx data y minSize maxDepth N classifier t = sdpRf mems S x yx data y minSize maxDepth N classifier t ∧
    ddpRfRnd id mems S x yx data y minSize maxDepth N classifier t = ddpRf mems S x yx data y minSize maxDepth N classifier t ∧
    expRfRnd id mems S x data y minSize maxDepth N = expRf mems S x data y minSize maxDepth N ∧
    cdfRfRnd id mems S x data y minSize maxDepth N s = cdfRf mems S x data y minSize maxDepth N s ∧
    (mems.length * N ≤ 2 ^ 53 → ruleWeightsRnd id mems S x data minSize maxDepth N i = ruleWeights mems S x data minSize maxDepth N i) := by
  refine ⟨?_, cellSumRnd_id _ _, cellSumRnd_id _ _, cellSumRnd_id _ _, fun hN => ?_⟩
  · unfold sdpRfRnd sdpRf
    rw [← cellSumRnd_id]
    congr 1
    funext w i
    cases classifier
    · by_cases a : t.1 ≤ y i <;> by_cases b : y i ≤ t.2 <;> simp [sameDec, ind, a, b]
    · simp [sameDec]
  · have := C104_weights (rnd := id) (u := 0) (by intro q; simp) (le_refl _) (fun n _ => rfl) mems S x data minSize maxDepth hN i
    simpa [sub_eq_zero] using this

/-! ## Double precision -/

theorem double_factor {M : Nat} (h : M + 3 ≤ 2 ^ 52) : ((1 : ℚ) + 1 / 2 ^ 53) ^ (M + 3) - 1 ≤ (M + 3) / 2 ^ 52 := by
  have h1 : ((M + 3 : Nat) : ℚ) ≤ 2 ^ 52 := by exact_mod_cast h
  have h2 := pow_sub_one_le (u := 1 / 2 ^ 53) (by norm_num) (M + 3) (by
    rw [mul_one_div, div_le_iff₀ (by norm_num)]
    refine le_trans h1 ?_
    norm_num)
  refine le_trans h2 (le_of_eq ?_)
  push_cast
  ring

section
variable {mems : List Mem} {N : Nat} (hN : mems.length * N + 3 ≤ 2 ^ 52) (S : List Nat) (x : Row) (yx : ℚ) (data : Nat → Row) (y : Nat → ℚ)
  (minSize maxDepth : Nat) (classifier : Bool) (t : ℚ × ℚ)
include hN

/-- **C104, SDP in double precision**: the relative error is at most `(trees * rows + 3) 2 ^ -52`, and so is the absolute error. -/
theorem C104_sdp_double :
    |sdpRfRnd roundDouble mems S x yx data y minSize maxDepth N classifier t - sdpRf mems S x yx data y minSize maxDepth N classifier t| ≤
      (mems.length * N + 3) / 2 ^ 52 * sdpRf mems S x yx data y minSize maxDepth N classifier t ∧
    |sdpRfRnd roundDouble mems S x yx data y minSize maxDepth N classifier t - sdpRf mems S x yx data y minSize maxDepth N classifier t| ≤
      (mems.length * N + 3) / 2 ^ 52 := by
  have h := (C104_sdp roundDouble_relErr (by norm_num) roundDouble_keeps mems S x yx data y minSize maxDepth (N := N) (by omega) classifier t).1
  have hs := (C21_sdp_ddp_are_probabilities mems S x yx data y minSize maxDepth N classifier t).1
  have hf := double_factor hN
  push_cast at hf
  have h1 := le_trans h (mul_le_mul_of_nonneg_right hf hs.1)
  refine ⟨h1, le_trans h1 ?_⟩
  have h0 : (0 : ℚ) ≤ (mems.length * N + 3) / 2 ^ 52 := by positivity
  calc ((mems.length * N + 3) / 2 ^ 52 : ℚ) * _ ≤ (mems.length * N + 3) / 2 ^ 52 * 1 := mul_le_mul_of_nonneg_left hs.2 h0
    _ = _ := mul_one _

/-- **C104, impossible decisions**: the computed SDP is 0 exactly when the SDP is 0. -/
theorem C104_zero (hlt : mems.length * N + 3 < 2 ^ 52) :
    sdpRfRnd roundDouble mems S x yx data y minSize maxDepth N classifier t = 0 ↔ sdpRf mems S x yx data y minSize maxDepth N classifier t = 0 := by
  have h := (C104_sdp_double hN S x yx data y minSize maxDepth classifier t).1
  have hs := (C21_sdp_ddp_are_probabilities mems S x yx data y minSize maxDepth N classifier t).1.1
  constructor
  · intro e
    rw [e, zero_sub, abs_neg, abs_of_nonneg hs] at h
    by_contra hne
    have hpos : 0 < sdpRf mems S x yx data y minSize maxDepth N classifier t := lt_of_le_of_ne hs (Ne.symm hne)
    have h1 : ((mems.length * N + 3 : Nat) : ℚ) < 2 ^ 52 := by exact_mod_cast hlt
    have h2 : ((mems.length : ℚ) * N + 3) / 2 ^ 52 < 1 := by
      rw [div_lt_one (by norm_num)]
      push_cast at h1
      exact h1
    nlinarith
  · intro e
    rw [e, mul_zero, sub_zero] at h
    exact abs_eq_zero.mp (le_antisymm h (abs_nonneg _))

/-- **C104, the level `pi`**: an SDP that is further from `pi` than the error bound is compared with `pi` as the exact one. -/
theorem C104_level {pi : ℚ} (h : (mems.length * N + 3) / 2 ^ 52 < |sdpRf mems S x yx data y minSize maxDepth N classifier t - pi|) :
    pi ≤ sdpRfRnd roundDouble mems S x yx data y minSize maxDepth N classifier t ↔ pi ≤ sdpRf mems S x yx data y minSize maxDepth N classifier t := by
  have h1 := abs_le.mp (C104_sdp_double hN S x yx data y minSize maxDepth classifier t).2
  rcases lt_abs.mp h with h2 | h2
  · constructor <;> intro _ <;> linarith [h1.1]
  · constructor <;> intro _ <;> linarith [h1.2]

end

/-- **C104, minimal sufficient explanations in double precision.** `importance_sdp_rf` with the computed probabilities answers, and for each sample it reports
with at least `pi`, the reported set, if it is not the set of all columns, has an exact SDP of at least `pi` minus the error bound; no explored set of
smaller size has an exact SDP of `pi` plus the error bound; and no explored set of the same size is better by more than twice the error bound. -/
theorem C104_explanations {cols : Nat} {order : List Nat} {C : List (List Nat)} (h : SearchArgs cols C (rfSpace cols order)) {mems : List Mem} {N M : Nat}
    (hN : mems.length * N + 3 ≤ 2 ^ 52) (X : Nat → Row) (yX : Nat → ℚ) (data : Nat → Row) (y : Nat → ℚ) (minSize maxDepth : Nat) (classifier : Bool)
    (t : Nat → ℚ × ℚ) {pi : ℚ} (h0 : 0 < pi) (h1 : pi ≤ 1) (minimal : Nat) (stop : Bool) (half : Nat) :
    ∃ st, importanceSdpRf (fun i S => sdpRfRnd roundDouble mems S (X i) (yX i) data y minSize maxDepth N classifier (t i)) M cols order C pi minimal stop
        half = some st ∧
      ∀ i < M, pi ≤ (st.best i).sdp →
        ∃ k S, minimal ≤ k ∧ Candidate (searchPlayers C (rfSpace cols order)) k S ∧ (st.best i).cols = S.map ((↑) : Nat → Int) ∧
          (S.length ≠ cols → pi - (mems.length * N + 3) / 2 ^ 52 ≤ sdpRf mems S (X i) (yX i) data y minSize maxDepth N classifier (t i) ∧
            |(st.best i).sdp - sdpRf mems S (X i) (yX i) data y minSize maxDepth N classifier (t i)| ≤ (mems.length * N + 3) / 2 ^ 52) ∧
          (∀ k' S', minimal ≤ k' → k' < k → Candidate (searchPlayers C (rfSpace cols order)) k' S' →
            sdpRf mems S' (X i) (yX i) data y minSize maxDepth N classifier (t i) < pi + (mems.length * N + 3) / 2 ^ 52) ∧
          ∀ S', Candidate (searchPlayers C (rfSpace cols order)) k S' →
            sdpRf mems S' (X i) (yX i) data y minSize maxDepth N classifier (t i) ≤
              sdpRf mems S (X i) (yX i) data y minSize maxDepth N classifier (t i) + 2 * ((mems.length * N + 3) / 2 ^ 52) := by
  obtain ⟨st, e, hst⟩ := C29_reported_partial h (fun i S => sdpRfRnd roundDouble mems S (X i) (yX i) data y minSize maxDepth N classifier (t i)) M h0 h1
    minimal stop half
  refine ⟨st, e, fun i hi hpi => ?_⟩
  obtain ⟨k, S, a1, a2, a3, -, a5, -, a7, a8⟩ := hst i hi hpi
  have hb : ∀ S, |sdpRfRnd roundDouble mems S (X i) (yX i) data y minSize maxDepth N classifier (t i) -
      sdpRf mems S (X i) (yX i) data y minSize maxDepth N classifier (t i)| ≤ (mems.length * N + 3) / 2 ^ 52 := fun S =>
    (C104_sdp_double hN S (X i) (yX i) data y minSize maxDepth classifier (t i)).2
  refine ⟨k, S, a1, a2, a3, fun hl => ?_, fun k' S' hk' hlt hS' => ?_, fun S' hS' => ?_⟩
  · have := a5 hl
    refine ⟨?_, by rw [this]; exact hb S⟩
    rw [this] at hpi
    linarith [(abs_le.mp (hb S)).2]
  · have := a7 k' S' hk' hlt hS'
    linarith [(abs_le.mp (hb S')).1]
  · have := a8 S' hS'
    linarith [(abs_le.mp (hb S')).1, (abs_le.mp (hb S)).2]

/-- A regressor: the SDP is 1/2, its computed value is exact, and the expectation is rounded. -/
example : sdpRf [Mem.ofTree ladderTree leafJunk] [0, 2] (diag 4) 0 diag (fun i => i / 3) 1 3 10 false (1 / 2, 1) = 1 / 2 ∧
    sdpRfRnd roundDouble [Mem.ofTree ladderTree leafJunk] [0, 2] (diag 4) 0 diag (fun i => i / 3) 1 3 10 false (1 / 2, 1) = 1 / 2 ∧
    expRf [Mem.ofTree ladderTree leafJunk] [0, 2] (diag 4) diag (fun i => i / 3) 1 3 10 = 7 / 6 ∧
    expRfRnd roundDouble [Mem.ofTree ladderTree leafJunk] [0, 2] (diag 4) diag (fun i => i / 3) 1 3 10 ≠ 7 / 6 ∧
    ruleWeightsRnd roundDouble [Mem.ofTree ladderTree leafJunk] [0, 2] (diag 4) diag 1 3 10 4 = 1 / 4 ∧
    (1 : Nat) * 10 + 3 ≤ 2 ^ 52 := by
  decide +kernel

/-! ## What rounding breaks -/

/-- One would wish that the computed SDP is a probability. -/
def C104_range_claim : Prop :=
  ∀ (mems : List Mem) (S : List Nat) (x : Row) (yx : ℚ) (data : Nat → Row) (y : Nat → ℚ) (minSize maxDepth N : Nat) (classifier : Bool) (t : ℚ × ℚ),
    sdpRfRnd roundDouble mems S x yx data y minSize maxDepth N classifier t ≤ 1

/-- One would wish that an SDP that reaches a level is computed as one that reaches it. -/
def C104_level_claim : Prop :=
  ∀ (mems : List Mem) (S : List Nat) (x : Row) (yx : ℚ) (data : Nat → Row) (y : Nat → ℚ) (minSize maxDepth N : Nat) (classifier : Bool) (t : ℚ × ℚ)
    (pi : ℚ), pi ≤ sdpRf mems S x yx data y minSize maxDepth N classifier t → pi ≤ sdpRfRnd roundDouble mems S x yx data y minSize maxDepth N classifier t

/-- **C104, what rounding breaks.** Both claims fail: with one tree and nine rows that all have the decision of the observation the computed SDP is above 1;
with six such rows it is below 1, so the level 1 is not reached although every row has the decision. -/
theorem C104_level_false : ¬ C104_range_claim ∧ ¬ C104_level_claim ∧
    (sdpRf [Mem.ofTree rootSplit leafJunk] [0] (fun _ => 0) 1 (fun _ _ => 0) (fun _ => 1) 1 1 9 true (0, 0) = 1 ∧
      sdpRfRnd roundDouble [Mem.ofTree rootSplit leafJunk] [0] (fun _ => 0) 1 (fun _ _ => 0) (fun _ => 1) 1 1 9 true (0, 0) = 1 + 1 / 2 ^ 52) ∧
    (sdpRf [Mem.ofTree rootSplit leafJunk] [0] (fun _ => 0) 1 (fun _ _ => 0) (fun _ => 1) 1 1 6 true (0, 0) = 1 ∧
      sdpRfRnd roundDouble [Mem.ofTree rootSplit leafJunk] [0] (fun _ => 0) 1 (fun _ _ => 0) (fun _ => 1) 1 1 6 true (0, 0) = 1 - 1 / 2 ^ 53) := by
  have h1 : sdpRf [Mem.ofTree rootSplit leafJunk] [0] (fun _ => 0) 1 (fun _ _ => 0) (fun _ => 1) 1 1 9 true (0, 0) = 1 := by decide +kernel
  have h2 : sdpRfRnd roundDouble [Mem.ofTree rootSplit leafJunk] [0] (fun _ => 0) 1 (fun _ _ => 0) (fun _ => 1) 1 1 9 true (0, 0) = 1 + 1 / 2 ^ 52 := by
    decide +kernel
  have h3 : sdpRf [Mem.ofTree rootSplit leafJunk] [0] (fun _ => 0) 1 (fun _ _ => 0) (fun _ => 1) 1 1 6 true (0, 0) = 1 := by decide +kernel
  have h4 : sdpRfRnd roundDouble [Mem.ofTree rootSplit leafJunk] [0] (fun _ => 0) 1 (fun _ _ => 0) (fun _ => 1) 1 1 6 true (0, 0) = 1 - 1 / 2 ^ 53 := by
    decide +kernel
  refine ⟨fun h => ?_, fun h => ?_, ⟨h1, h2⟩, h3, h4⟩
  · have := h [Mem.ofTree rootSplit leafJunk] [0] (fun _ => 0) 1 (fun _ _ => 0) (fun _ => 1) 1 1 9 true (0, 0)
    rw [h2] at this
    norm_num at this
  · have := h [Mem.ofTree rootSplit leafJunk] [0] (fun _ => 0) 1 (fun _ _ => 0) (fun _ => 1) 1 1 6 true (0, 0) 1 (le_of_eq h3.symm)
    rw [h4] at this
    norm_num at this

end Acv
