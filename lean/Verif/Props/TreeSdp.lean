import Verif.Lemmas.TreeSdp
import Verif.Props.ShapPy

/-!
# C19, C20: same decision probability and conditional expectation of tree ensembles
-/

namespace Acv

theorem predict_leafAt {ts : List TreeArr} {m : Nat} (hts : ∀ t ∈ ts, WellFormed t m) {k : Nat} {base : Nat → ℚ} {z : Row}
    {p : ℚ} (hP : ensemblePredict ts none none base (full z) k = some p) :
    (ts.map fun t => t.value (leafAt t z) k).sum = p - base k := by
  have h1 := (C03_predict_is_sum_of_leaf_values hts none none base (full z) k).2 (fun t => leafAt t z)
    (fun t ht => leafAt_endsIn (hts t ht) z)
  have h2 : effLimit ts.length none none = ts.length := by rw [C03_tree_limit]; rfl
  rw [h2, List.take_length, hP] at h1
  have := Option.some.inj h1
  rw [this]; ring

/-- The claim of C20 for the Cython version (`ACVTree.compute_exp`), for ensembles without base offset: with `S` = all
columns, the value is the prediction as soon as every tree has a background row in the leaf of `x`. -/
def C20_claim_cython : Prop :=
  ∀ (ts : List TreeArr) (m : Nat), (∀ t ∈ ts, WellFormed t m) → ∀ (data : List Row) (x : Row) (k : Nat) (p : ℚ),
  ensemblePredict ts none none (fun _ => 0) (full x) k = some p →
  (∀ t ∈ ts, ∀ ℓ, EndsIn t (full x) ℓ → ∃ z ∈ data, EndsIn t (full z) ℓ) →
  expCy ts m data (List.range m) x k = p

/-- The same claim for the Python version (`ACVTree.py_compute_exp`). -/
def C20_claim_python : Prop :=
  ∀ (ts : List TreeArr) (m : Nat), 0 < m → (∀ t ∈ ts, WellFormed t m) → ∀ (data : List Row) (x : Row) (k : Nat) (p : ℚ),
  ensemblePredict ts none none (fun _ => 0) (full x) k = some p →
  (∀ t ∈ ts, ∀ ℓ, EndsIn t (full x) ℓ → ∃ z ∈ data, EndsIn t (full z) ℓ) →
  expPy ts m data (List.range m) x k = .ok p

theorem exTree_predict0 (z : Row) : ensemblePredict [exTree] none none (fun _ => 0) (full z) 0 =
    some (if z 0 ≤ 1 then 10 else if z 1 ≤ 3 then 20 else 30) := by
  have h := (C03_predict_is_sum_of_leaf_values (ts := [exTree]) (d := 3) (by simp [exTree_wf3]) none none (fun _ => 0)
    (full z) 0).2 (fun _ => exBTree.descend z) (by
      intro t ht
      rw [List.mem_singleton.mp ht, endsIn_iff exTree_isTree, descendObs_full])
  rw [h]
  have h2 : effLimit [exTree].length none none = 1 := by rw [C03_tree_limit]; rfl
  rw [h2]
  simp only [List.take_succ_cons, List.take_zero, List.map_cons, List.map_nil, List.sum_cons, List.sum_nil, exBTree,
    BTree.descend]
  by_cases h0 : z 0 ≤ 1
  · simp [h0, exTree]
  · by_cases h1 : z 1 ≤ 3 <;> simp [h0, h1, exTree]

/-- **C20 is false of the code**: an observation exactly on a threshold is counted in the leaves on both sides of it
(here 10 + 20 instead of 10). -/
theorem C20_cython_false : ¬ C20_claim_cython := by
  intro h
  have := h [exTree] 3 (by simp [exTree_wf3]) exData (fun _ => 1) 0 10 (by rw [exTree_predict0]; simp) (by
    intro t ht ℓ hℓ; exact ⟨fun _ => 1, by simp [exData], hℓ⟩)
  have h2 : expCy [exTree] 3 exData (List.range 3) (fun _ => 1) 0 = 50 := by decide +kernel
  rw [h2] at this
  norm_num at this

theorem C20_python_false : ¬ C20_claim_python := by
  intro h
  have := h [exTree] 3 (by decide) (by simp [exTree_wf3]) exData (fun _ => 1) 0 10 (by rw [exTree_predict0]; simp) (by
    intro t ht ℓ hℓ; exact ⟨fun _ => 1, by simp [exData], hℓ⟩)
  have h2 : (expPy [exTree] 3 exData (List.range 3) (fun _ => 1) 0).toOption = some 30 := by decide +kernel
  rw [this] at h2
  simp only [Except.toOption, Option.some.injEq] at h2
  norm_num at h2

/-- A background row on a threshold is enough to break the Cython version: `x = (2,2,2)` is on no threshold, its prediction
is 20, the result is 40. -/
theorem C20_background_row_on_threshold :
    ensemblePredict [exTree] none none (fun _ => 0) (full fun _ => 2) 0 = some 20 ∧ OffSplits exTree (fun _ => 2) ∧
      expCy [exTree] 3 exData (List.range 3) (fun _ => 2) 0 = 40 := by
  refine ⟨by rw [exTree_predict0]; norm_num, by unfold OffSplits; decide +kernel, by decide +kernel⟩

/-- **C20, partial**: when neither the observation nor a background row lies on a threshold, both implementations return,
with `S` = all columns in any order, the prediction minus the base offset of the model. Missing (false): entries equal to
a threshold. -/
theorem C20_full_coalition_is_prediction_partial {ts : List TreeArr} {m : Nat} (hts : ∀ t ∈ ts, WellFormed t m)
    {data : List Row} {S : List Nat} (hS : ∀ s, s ∈ S ↔ s < m) {x : Row} (k : Nat) {base : Nat → ℚ} {p : ℚ}
    (hP : ensemblePredict ts none none base (full x) k = some p)
    (hleaf : ∀ t ∈ ts, ∀ ℓ, EndsIn t (full x) ℓ → ∃ z ∈ data, EndsIn t (full z) ℓ)
    (hx : ∀ t ∈ ts, OffSplits t x) (hd : ∀ t ∈ ts, ∀ z ∈ data, OffSplits t z) :
    expCy ts m data S x k = p - base k ∧ (0 < m → expPy ts m data S x k = .ok (p - base k)) := by
  have hset : (S.map ([·])).toFinset = playerSet m [[]] := by
    ext c; simp [playerSet, hS]
  have hfull := leafGame_full hts (C := [[]]) (Or.inl rfl) x k hleaf
  rw [predict_leafAt hts hP] at hfull
  constructor
  · rw [expCy_eq hts S k hx hd, hset, hfull]
  · intro hm
    have hne : S ≠ [] := List.ne_nil_of_mem ((hS 0).mpr hm)
    rw [expPy_eq hts hne k hx hd, hset, hfull]

/-- For every `S`, off the thresholds, both implementations return the value function explained by the Shapley values
(C06). -/
theorem C20_exp_is_leaf_game {ts : List TreeArr} {m : Nat} (hts : ∀ t ∈ ts, WellFormed t m)
    {data : List Row} (S : List Nat) {x : Row} (k : Nat)
    (hx : ∀ t ∈ ts, OffSplits t x) (hd : ∀ t ∈ ts, ∀ z ∈ data, OffSplits t z) :
    expCy ts m data S x k = leafGame ts m data x k (S.map ([·])).toFinset ∧
      (S ≠ [] → expPy ts m data S x k = .ok (leafGame ts m data x k (S.map ([·])).toFinset)) :=
  ⟨expCy_eq hts S k hx hd, fun hne => expPy_eq hts hne k hx hd⟩

/-- rows off the thresholds of `exTree` -/
def exData2 : List Row := [fun _ => 0, fun _ => 2, fun j => if j = 0 then 2 else 5, fun j => if j = 0 then 0 else 4]

theorem exData2_off : ∀ t ∈ [exTree], ∀ z ∈ exData2, OffSplits t z := by
  intro t ht
  rw [List.mem_singleton.mp ht]
  unfold OffSplits
  decide +kernel

example : (∀ t ∈ [exTree], WellFormed t 3) ∧ (∀ t ∈ [exTree], OffSplits t fun _ => 2) ∧
    (∀ t ∈ [exTree], ∀ z ∈ exData2, OffSplits t z) ∧
    (∀ t ∈ [exTree], ∀ ℓ, EndsIn t (full fun _ => 2) ℓ → ∃ z ∈ exData2, EndsIn t (full z) ℓ) ∧
    expCy [exTree] 3 exData2 [2, 0, 1] (fun _ => 2) 0 = 20 ∧ expCy [exTree] 3 exData2 [0] (fun _ => 2) 0 = 25 := by
  refine ⟨by simp [exTree_wf3], ?_, exData2_off, ?_, by decide +kernel, by decide +kernel⟩
  · intro t ht; exact exData2_off t ht _ (by simp [exData2])
  · intro t ht ℓ hℓ; exact ⟨fun _ => 2, by simp [exData2], hℓ⟩

theorem cntCC_mono (data : List Row) (r : Rect) {S T : List Nat} (h : ∀ s ∈ S, s ∈ T) : cntCC data r T ≤ cntCC data r S := by
  unfold cntCC
  apply List.Sublist.length_le
  apply List.monotone_filter_right
  intro z hz
  unfold satCC at hz ⊢
  rw [List.all_eq_true] at hz ⊢
  exact fun s hs => hz s (h s hs)

/-- **C20, second half**, for all inputs (thresholds included): what one tree adds to the Python result is a combination of
its leaf values with coefficients between 0 and 1, and 0 on the leaves that `x` contradicts on `S`. -/
theorem C20_python_combination (t : TreeArr) (m : Nat) (data : List Row) {S : List Nat} (hS : S ≠ []) (hm : ∀ s ∈ S, s < m)
    (x : Row) : ∃ c : Nat → ℚ, (∀ ℓ, 0 ≤ c ℓ ∧ c ℓ ≤ 1) ∧
      (∀ ℓ, (∃ s ∈ S, (∃ h, (t.leafRect ℓ s).hi = some h ∧ h < x s) ∨ (∃ l, (t.leafRect ℓ s).lo = some l ∧ x s < l)) → c ℓ = 0) ∧
      ∀ k, expPy [t] m data S x k = .ok (t.leafIdx.map fun ℓ => c ℓ * t.value ℓ k).sum := by
  refine ⟨fun ℓ => if satCC (t.leafRect ℓ) S x then
    (cntCC data (t.leafRect ℓ) (List.range m) : ℚ) / cntCC data (t.leafRect ℓ) S else 0, ?_, ?_, ?_⟩
  · intro ℓ
    have hle : (cntCC data (t.leafRect ℓ) (List.range m) : ℚ) ≤ cntCC data (t.leafRect ℓ) S := by
      exact_mod_cast cntCC_mono data _ fun s hs => List.mem_range.mpr (hm s hs)
    simp only
    split
    · exact ⟨div_nonneg (Nat.cast_nonneg _) (Nat.cast_nonneg _), div_le_one_of_le₀ hle (Nat.cast_nonneg _)⟩
    · simp
  · rintro ℓ ⟨s, hs, h⟩
    simp only
    rw [if_neg]
    unfold satCC
    rw [List.all_eq_true]
    intro hall
    have := hall s hs
    unfold Ival.memCC at this
    rcases h with ⟨hh, h1, h2⟩ | ⟨l, h1, h2⟩
    · rw [h1] at this; simp only [Bool.and_eq_true, decide_eq_true_eq] at this; linarith [this.1]
    · rw [h1] at this; simp only [Bool.and_eq_true, decide_eq_true_eq] at this; linarith [this.2]
  · intro k
    unfold expPy
    rw [if_neg hS]
    simp only [sumLeaves, List.map_cons, List.map_nil, List.sum_cons, List.sum_nil, add_zero]
    congr 2
    apply List.map_congr_left
    intro ℓ _
    split
    · rw [guardDiv_eq]; ring
    · simp

/-- **C20 for `compute_exp_cat`**, for all inputs: the value is the mean prediction, minus base offset, of the background
rows that agree with `x` on `S`, and 0 if there are none. -/
theorem C20_cat_is_conditional_mean {ts : List TreeArr} {m : Nat} (hts : ∀ t ∈ ts, WellFormed t m) (data : List Row)
    {S : List Nat} (hS : ∀ s ∈ S, s < m) (x : Row) (k : Nat) (base : Nat → ℚ) (P : Row → ℚ)
    (hP : ∀ z, ensemblePredict ts none none base (full z) k = some (P z)) :
    (matching S x data ≠ [] → expCatCy ts m data S x k = meanOver (matching S x data) P - base k) ∧
      (matching S x data = [] → expCatCy ts m data S x k = 0) := by
  have hrows : ∀ z ∈ matching S x data, ∀ s ∈ S, z s = x s := by
    intro z hz
    rw [matching_eq, List.mem_filter, eqOn_iff] at hz
    exact hz.2
  have key : expCatCy ts m data S x k
      = ((matching S x data).map fun z => P z - base k).sum / (matching S x data).length := by
    have := cat_mean hts k (matching S x data) hS hrows
    simp only [predict_leafAt hts (hP _)] at this
    rw [← this]
    apply sumLeaves_congr
    intro t _ ℓ _
    have : (data.filter fun z => eqOn S x z && sat (t.leafRect ℓ) (List.range m) z).length
        = cnt (matching S x data) (t.leafRect ℓ) (List.range m) := by
      unfold cnt
      rw [matching_eq, List.filter_filter]
      congr 2
      funext z
      rw [Bool.and_comm]
    rw [this, matching_eq]
  constructor
  · intro hne
    rw [key]
    have hl : (0 : ℚ) < (matching S x data).length := by exact_mod_cast List.length_pos_of_ne_nil hne
    have : ∀ l : List Row, (l.map fun z => P z - base k).sum = (l.map P).sum - l.length * base k := by
      intro l
      induction l with
      | nil => simp
      | cons a l ih => simp only [List.map_cons, List.sum_cons, ih, List.length_cons]; push_cast; ring
    rw [this]
    unfold meanOver
    field_simp
  · intro h0; rw [key, h0]; simp

example : (∀ z, ensemblePredict [exTree] none none (fun _ => 0) (full z) 0 =
      some (if z 0 ≤ 1 then 10 else if z 1 ≤ 3 then 20 else 30)) ∧
    matching [0] (fun _ => 2) exData ≠ [] ∧ expCatCy [exTree] 3 exData [0] (fun _ => 2) 0 = 25 := by
  refine ⟨exTree_predict0, ?_, by decide +kernel⟩
  rw [matching_eq]
  intro h
  have : (fun _ => 2 : Row) ∈ exData.filter (eqOn [0] fun _ => 2) := by simp [exData, eqOn]
  rw [h] at this
  simp at this

/-! ## C19 -/

/-- The claim of C19 for an implementation `f`. -/
def C19_claim (f : List TreeArr → Nat → (Row → Nat) → List Row → List Nat → Row → ℚ) : Prop :=
  ∀ (ts : List TreeArr) (m : Nat), 0 < m → (∀ t ∈ ts, WellFormed t m) → ∀ (lab : Row → Nat) (data : List Row) (x : Row),
    (∀ S : List Nat, S.Nodup → (∀ s ∈ S, s < m) → 0 ≤ f ts m lab data S x ∧ f ts m lab data S x ≤ 1) ∧
    (∀ S : List Nat, S.Nodup → (∀ s, s ∈ S ↔ s < m) → f ts m lab data S x = 1) ∧ f ts m lab data [] x = 0

theorem full_length {S : List Nat} {m : Nat} (hnd : S.Nodup) (h : ∀ s, s ∈ S ↔ s < m) : S.length = m := by
  have : S.Perm (List.range m) := (List.perm_ext_iff_of_nodup hnd List.nodup_range).mpr (by simpa using h)
  simpa using this.length_eq

/-- **C19** holds for the Python implementation. -/
theorem C19_python_sdp_probability : C19_claim sdpClfPy := by
  intro ts m hm hts lab data x
  refine ⟨fun S _ _ => ?_, fun S hnd h => ?_, ?_⟩
  · unfold sdpClfPy
    split
    · norm_num
    · split
      · norm_num
      · exact clamp01_range _
  · unfold sdpClfPy; rw [if_pos (full_length hnd h)]
  · unfold sdpClfPy; simp [hm.ne]

/-- **C19** holds for the categorical implementations (Cython and Python). -/
theorem C19_cat_sdp_probability : C19_claim sdpClfCat := by
  intro ts m hm hts lab data x
  refine ⟨fun S _ _ => ?_, fun S hnd h => ?_, ?_⟩
  · unfold sdpClfCat
    split
    · norm_num
    · split
      · norm_num
      · exact clamp01_range _
  · unfold sdpClfCat; rw [if_pos (full_length hnd h)]
  · unfold sdpClfCat; simp [hm.ne]

/-- Two-class tree: node 0 tests column 1 against 1/2, node 2 tests column 0 against 3/2; class 1 probabilities
2/5, 9/10, 1/5. -/
def sdpTree : TreeArr :=
  { exTree with
    feature := fun n => if n = 0 then 1 else if n = 2 then 0 else -2
    threshold := fun n => if n = 0 then 1 / 2 else if n = 2 then 3 / 2 else 0
    value := fun n k =>
      let p : ℚ := if n = 1 then 2 / 5 else if n = 3 then 9 / 10 else if n = 4 then 1 / 5 else 0
      if k = 1 then p else 1 - p }

def sdpBTree : BTree := .node 0 1 (1 / 2) (.leaf 1) (.node 2 0 (3 / 2) (.leaf 3) (.leaf 4))

theorem sdpTree_wf : WellFormed sdpTree 2 := by
  refine ⟨sdpBTree, ?_⟩
  constructor
  · rfl
  · simp [sdpBTree, Encodes, sdpTree, exTree, BTree.id]
  · decide
  · intro n
    have : n ∈ sdpBTree.ids ↔ n ∈ exBTree.ids := by simp [sdpBTree, exBTree, BTree.ids]
    rw [this]; exact exTree_isTree.all n
  · intro f hf
    simp [sdpBTree, BTree.vars] at hf
    omega

/-- the class predicted by `sdpTree` -/
def sdpLab (z : Row) : Nat := if z 1 ≤ 1 / 2 then 0 else if z 0 ≤ 3 / 2 then 1 else 0

/-- a row of two columns -/
def row2 (a b : ℚ) : Row := fun j => if j = 0 then a else if j = 1 then b else 0

/-- **C19 is false of the Cython implementation** (`ACVTree.compute_sdp_clf`): a single decision tree, three background
rows on no threshold, labels given by the tree itself, and the result is 36/35. -/
theorem C19_cython_false : ¬ C19_claim sdpClfCy := by
  intro h
  have h1 := ((h [sdpTree] 2 (by decide) (by simp [sdpTree_wf]) sdpLab [row2 2 0, row2 2 1, row2 1 2] (row2 2 0)).1 [0]
    (by simp) (by simp)).2
  have h2 : sdpClfCy [sdpTree] 2 sdpLab [row2 2 0, row2 2 1, row2 1 2] [0] (row2 2 0) = 36 / 35 := by decide +kernel
  rw [h2] at h1
  norm_num at h1

/-- **C19, partial** for the Cython implementation: the two extreme coalitions. Missing (false): the range in between. -/
theorem C19_cython_endpoints_partial (ts : List TreeArr) {m : Nat} (hm : 0 < m) (lab : Row → Nat) (data : List Row) (x : Row) :
    (∀ S : List Nat, S.Nodup → (∀ s, s ∈ S ↔ s < m) → sdpClfCy ts m lab data S x = 1) ∧ sdpClfCy ts m lab data [] x = 0 := by
  refine ⟨fun S hnd h => ?_, ?_⟩
  · unfold sdpClfCy; rw [if_pos (full_length hnd h)]
  · unfold sdpClfCy; simp [hm.ne]

/-- **C19, Python: what is returned.** For a coalition that is neither empty nor complete, `py_compute_sdp_clf` returns
`(e - d) / (u - d)` cut to `[0, 1]`, where `e`, `u` and `d` are what `py_compute_exp` returns for the class of `x` with, as background,
all rows, the rows of the same class and the rows of another class; it returns 0 if `u = d`. -/
theorem C19_python_formula (ts : List TreeArr) {m : Nat} (lab : Row → Nat) (data : List Row) {S : List Nat} (hS0 : S ≠ [])
    (hSm : S.length ≠ m) (x : Row) {e u d : ℚ} (he : expPy ts m data S x (lab x) = .ok e)
    (hu : expPy ts m (data.filter fun z => lab z = lab x) S x (lab x) = .ok u)
    (hd : expPy ts m (data.filter fun z => lab z ≠ lab x) S x (lab x) = .ok d) :
    (u = d → sdpClfPy ts m lab data S x = 0) ∧ (u ≠ d → sdpClfPy ts m lab data S x = max 0 (min 1 ((e - d) / (u - d)))) := by
  unfold expPy at he hu hd
  rw [if_neg hS0] at he hu hd
  have he := Except.ok.inj he
  have hu := Except.ok.inj hu
  have hd := Except.ok.inj hd
  have key : sdpClfPy ts m lab data S x = clamp01 (guardDiv (e - d) (u - d)) := by
    unfold sdpClfPy
    rw [if_neg hSm, if_neg hS0]
    simp only
    rw [he, hu, hd]
  rw [key, guardDiv_eq]
  refine ⟨fun h => ?_, fun _ => ?_⟩
  · rw [h, sub_self, div_zero]; unfold clamp01; norm_num
  · generalize (e - d) / (u - d) = q
    unfold clamp01
    rcases lt_trichotomy q 0 with h | h | h
    · rw [if_neg (not_le.2 h), if_neg (not_lt.2 (by linarith)), min_eq_right (by linarith), max_eq_left (le_of_lt h)]; ring
    · rw [h]; norm_num
    · by_cases h1 : q ≤ 1
      · rw [if_pos (le_of_lt h), if_pos h1, if_neg (not_lt.2 h1), min_eq_right h1, max_eq_right (le_of_lt h)]; ring
      · rw [if_neg h1, if_pos (not_le.1 h1), min_eq_left (le_of_lt (not_le.1 h1)), max_eq_right zero_le_one]; ring

example : expPy [sdpTree] 2 [row2 0 0, row2 0 1, row2 2 1, row2 2 0] [0] (row2 0 1) 1 = .ok (13 / 20) ∧
    sdpClfPy [sdpTree] 2 sdpLab [row2 0 0, row2 0 1, row2 2 1, row2 2 0] [0] (row2 0 1) = 23 / 38 := by decide +kernel

theorem memCC_iff {i : Ival} {v : ℚ} : i.memCC v = true ↔ InClosedIv i v := by
  rcases i with ⟨_ | l, _ | h⟩ <;> simp [Ival.memCC, InClosedIv, and_comm]

theorem satCC_iff {r : Rect} {S : List Nat} {z : Row} : satCC r S z = true ↔ ∀ s ∈ S, InClosedIv (r s) (z s) := by
  unfold satCC
  rw [List.all_eq_true]
  exact forall₂_congr fun s _ => memCC_iff

open Classical in
theorem cntCC_rows (rows : List Row) (r : Rect) (S : List Nat) :
    cntCC rows r S = (rows.filter fun z => ∀ s ∈ S, InClosedIv (r s) (z s)).length := by
  unfold cntCC
  congr 1
  apply List.filter_congr
  intro z _
  rw [Bool.eq_iff_iff, satCC_iff, decide_eq_true_eq]

open Classical in
/-- **C19, Cython: what is returned.** For a coalition that is neither empty nor complete, `compute_sdp_clf` returns
`(M - M_down) / (M_up - M_down)` (0 if the denominator is 0), where `M`, `M_up` and `M_down` add up, over the trees, the weighted means
of the scores of the leaves that fit `x` on `S`; the weight of a leaf is the share of the rows of the leaf among the rows that fit it
on `S`, for all rows, the rows of the class of `x` and the others. Nothing keeps the quotient in `[0, 1]` (`C19_cython_false`). -/
theorem C19_cython_formula (ts : List TreeArr) {m : Nat} (lab : Row → Nat) (data : List Row) {S : List Nat} (hS0 : S ≠ [])
    (hSm : S.length ≠ m) (x : Row) :
    let weight := fun (rows : List Row) (t : TreeArr) (ℓ : Nat) =>
      if ∀ s ∈ S, InClosedIv (t.leafRect ℓ s) (x s) then
        ((rows.filter fun z => ∀ s < m, InClosedIv (t.leafRect ℓ s) (z s)).length : ℚ) /
          (rows.filter fun z => ∀ s ∈ S, InClosedIv (t.leafRect ℓ s) (z s)).length else 0
    let M := fun rows => (ts.map fun t => leafMean t (lab x) (weight rows t)).sum
    let up := data.filter fun z => lab z = lab x
    let down := data.filter fun z => lab z ≠ lab x
    sdpClfCy ts m lab data S x = (M data - M down) / (M up - M down) := by
  intro weight M up down
  have hw : ∀ rows (t : TreeArr) ℓ, (if satCC (t.leafRect ℓ) S x then
      guardDiv (cntCC rows (t.leafRect ℓ) (List.range m)) (cntCC rows (t.leafRect ℓ) S) else 0) = weight rows t ℓ := by
    intro rows t ℓ
    simp only [weight, guardDiv_eq]
    rw [cntCC_rows, cntCC_rows]
    simp only [List.mem_range]
    by_cases h : ∀ s ∈ S, InClosedIv (t.leafRect ℓ s) (x s)
    · rw [if_pos h, if_pos (satCC_iff.2 h)]
    · rw [if_neg h, if_neg (fun hc => h (satCC_iff.1 hc))]
  have hwv : ∀ rows (t : TreeArr) ℓ, (if satCC (t.leafRect ℓ) S x then
      guardDiv (cntCC rows (t.leafRect ℓ) (List.range m) * t.value ℓ (lab x)) (cntCC rows (t.leafRect ℓ) S) else 0) =
        weight rows t ℓ * t.value ℓ (lab x) := by
    intro rows t ℓ
    rw [← hw]
    split
    · rw [guardDiv_eq, guardDiv_eq]; ring
    · simp
  have hM : ∀ rows, (ts.map fun t => (t.leafIdx.map fun ℓ => guardDiv
      (if satCC (t.leafRect ℓ) S x then
        guardDiv (cntCC rows (t.leafRect ℓ) (List.range m) * t.value ℓ (lab x)) (cntCC rows (t.leafRect ℓ) S) else 0)
      (t.leafIdx.map fun ℓ => if satCC (t.leafRect ℓ) S x then
        guardDiv (cntCC rows (t.leafRect ℓ) (List.range m)) (cntCC rows (t.leafRect ℓ) S) else 0).sum).sum).sum = M rows := by
    intro rows
    simp only [M]
    congr 1
    apply List.map_congr_left
    intro t _
    simp only [hw, hwv]
    simp only [guardDiv_eq, leafMean, div_eq_mul_inv]
    rw [List.sum_map_mul_right]
  have e1 : (data.filter fun z => decide (lab x = lab z)) = up := List.filter_congr fun z _ => decide_eq_decide.2 eq_comm
  have e2 : (data.filter fun z => decide (¬ lab x = lab z)) = down := List.filter_congr fun z _ => decide_eq_decide.2 (not_congr eq_comm)
  unfold sdpClfCy
  rw [if_neg hSm, if_neg hS0]
  simp only
  rw [e1, e2, hM, hM, hM, guardDiv_eq]

/-- What the categorical SDP means: when the rows avoid the thresholds, some row agrees with `x` on `S`, and the model's mean
score for the class of `x` differs between the agreeing rows of that class and the other agreeing rows, the value is the
frequency of the class of `x` among the rows that agree with `x` on `S`. -/
theorem C19_cat_is_frequency {ts : List TreeArr} {m : Nat} (hts : ∀ t ∈ ts, WellFormed t m) (lab : Row → Nat)
    {data : List Row} {S : List Nat} (hS : ∀ s ∈ S, s < m) (hS0 : S ≠ []) (hSm : S.length ≠ m) {x : Row}
    (base : Nat → ℚ) (P : Row → ℚ) (hP : ∀ z, ensemblePredict ts none none base (full z) (lab x) = some (P z))
    (hx : ∀ t ∈ ts, OffSplits t x) (hd : ∀ t ∈ ts, ∀ z ∈ data, OffSplits t z) (hne : matching S x data ≠ [])
    (hdiff : meanOver ((matching S x data).filter fun z => lab x = lab z) (fun z => P z - base (lab x))
      ≠ meanOver ((matching S x data).filter fun z => ¬ lab x = lab z) (fun z => P z - base (lab x))) :
    sdpClfCat ts m lab data S x
      = ((matching S x data).filter fun z => lab x = lab z).length / (matching S x data).length := by
  have hmean : ∀ rows : List Row, (∀ z ∈ rows, z ∈ matching S x data) →
      (sumLeaves ts (lab x) fun r v => if satCC r S x then guardDiv (cntCC rows r (List.range m) * v) rows.length else 0)
        = meanOver rows fun z => P z - base (lab x) := by
    intro rows hrows
    have hmem : ∀ z ∈ rows, z ∈ data ∧ ∀ s ∈ S, z s = x s := by
      intro z hz
      have := hrows z hz
      rw [matching_eq, List.mem_filter, eqOn_iff] at this
      exact this
    have := cat_mean hts (lab x) rows hS fun z hz => (hmem z hz).2
    simp only [predict_leafAt hts (hP _)] at this
    unfold meanOver
    rw [← this]
    apply sumLeaves_congr
    intro t ht ℓ hℓ
    rw [satCC_eq (offSplits_lo (hts t ht) (hx t ht) hℓ),
      cntCC_eq fun z hz => offSplits_lo (hts t ht) (hd t ht z (hmem z hz).1) hℓ]
  unfold sdpClfCat
  rw [if_neg hSm, if_neg hS0, ← matching_eq]
  simp only
  rw [hmean _ fun z hz => hz, hmean _ fun z hz => (List.mem_filter.mp hz).1, hmean _ fun z hz => (List.mem_filter.mp hz).1,
    guardDiv_eq]
  have hsp := filter_split (p := fun z => decide (lab x = lab z)) (matching S x data) (fun z => P z - base (lab x))
  have hdn : (matching S x data).filter (fun z => !decide (lab x = lab z)) = (matching S x data).filter fun z => ¬ lab x = lab z := by
    congr 1; funext z; simp
  rw [hdn] at hsp
  rw [mixture hsp.1 hsp.2 hne hdiff, clamp01_id (div_nonneg (Nat.cast_nonneg _) (Nat.cast_nonneg _))]
  apply div_le_one_of_le₀ _ (by positivity)
  exact_mod_cast List.length_filter_le _ _

/-- a concrete case: two of the three rows agreeing with `x` on column 0 have its class -/
example : (∀ t ∈ [sdpTree], WellFormed t 2) ∧
    (∀ t ∈ [sdpTree], OffSplits t (row2 1 2)) ∧ (∀ t ∈ [sdpTree], ∀ z ∈ [row2 1 0, row2 1 1, row2 1 2, row2 2 2], OffSplits t z) ∧
    (matching [0] (row2 1 2) [row2 1 0, row2 1 1, row2 1 2, row2 2 2]).length = 3 ∧
    sdpClfCat [sdpTree] 2 sdpLab [row2 1 0, row2 1 1, row2 1 2, row2 2 2] [0] (row2 1 2) = 2 / 3 := by
  refine ⟨by simp [sdpTree_wf], ?_, ?_, by rw [matching_eq]; decide +kernel, by decide +kernel⟩
  all_goals
    intro t ht
    rw [List.mem_singleton.mp ht]
    unfold OffSplits
    decide +kernel

end Acv
