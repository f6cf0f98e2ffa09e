import Verif.Props.TreeSdp
import Verif.Props.ShapPy

/-!
# C114: Shapley values explain the conditional expectations that `compute_exp` reports

`shap_values` and `compute_exp` are separate pieces of code. A user who reads both expects the Shapley values to be those of the game
"what `compute_exp` returns for the columns of the coalition".
-/

namespace Acv

/-- `cols S` lists the columns of the players of `S`, in any order and possibly with repetitions. -/
def ListsColumns (cols : Finset (List Nat) → List Nat) : Prop := ∀ S s, s ∈ cols S ↔ ∃ g ∈ S, s ∈ g

theorem leafGame_cols (ts : List TreeArr) (m : Nat) (data : List Row) (x : Row) (k : Nat) {S T : Finset (List Nat)}
    (h : ∀ s, (∃ g ∈ S, s ∈ g) ↔ ∃ g ∈ T, s ∈ g) : leafGame ts m data x k S = leafGame ts m data x k T := by
  have ha : ∀ (r : Rect) (z : Row), AgreesOn r S z ↔ AgreesOn r T z := by
    intro r z
    constructor
    · intro hS g hg s hs
      obtain ⟨g', hg', hs'⟩ := (h s).2 ⟨g, hg, hs⟩
      exact hS g' hg' s hs'
    · intro hT g hg s hs
      obtain ⟨g', hg', hs'⟩ := (h s).1 ⟨g, hg, hs⟩
      exact hT g' hg' s hs'
  have hs : ∀ r, leafShare m data r x S = leafShare m data r x T := by
    intro r
    have gen : ∀ A B : Row → Prop, A = B → ∀ n : ℚ, (open Classical in (if A x then n / ((data.filter fun z => A z).length : ℚ) else 0)) =
        (open Classical in (if B x then n / ((data.filter fun z => B z).length : ℚ) else 0)) := by
      rintro A _ rfl n; rfl
    exact gen _ _ (funext fun z => propext (ha r z)) _
  unfold leafGame
  simp only [hs]

theorem shapley_congr {ι : Type} [DecidableEq ι] (P : Finset ι) {v w : Finset ι → ℚ} (h : ∀ S, S ⊆ P → v S = w S) {i : ι} (hi : i ∈ P) :
    shapley P v i = shapley P w i := by
  unfold shapley
  refine Finset.sum_congr rfl fun S hS => ?_
  have hSP : S ⊆ P := (Finset.mem_powerset.1 hS).trans (Finset.erase_subset _ _)
  rw [h S hSP, h (insert i S) (Finset.insert_subset hi hSP)]

/-- interchangeable players have the same Shapley value -/
theorem shapley_symmetric {ι : Type} [DecidableEq ι] {P : Finset ι} {v : Finset ι → ℚ} {i j : ι} (hi : i ∈ P) (hj : j ∈ P)
    (h : ∀ S, S ⊆ P → i ∉ S → j ∉ S → v (insert i S) = v (insert j S)) : shapley P v i = shapley P v j := by
  rcases eq_or_ne i j with rfl | hij
  · rfl
  have hiQ : i ∉ (P.erase i).erase j := by simp
  have hjQ : j ∉ (P.erase i).erase j := by simp
  have e1 : P.erase i = insert j ((P.erase i).erase j) := (Finset.insert_erase (Finset.mem_erase.2 ⟨hij.symm, hj⟩)).symm
  have e2 : P.erase j = insert i ((P.erase i).erase j) := by
    rw [Finset.erase_right_comm]
    exact (Finset.insert_erase (Finset.mem_erase.2 ⟨hij, hi⟩)).symm
  unfold shapley
  rw [e1, e2, Finset.sum_powerset_insert hjQ, Finset.sum_powerset_insert hiQ]
  congr 1
  · refine Finset.sum_congr rfl fun S hS => ?_
    have hS' := Finset.mem_powerset.1 hS
    rw [h S (hS'.trans ((Finset.erase_subset _ _).trans (Finset.erase_subset _ _))) (fun hc => hiQ (hS' hc)) (fun hc => hjQ (hS' hc))]
  · refine Finset.sum_congr rfl fun S hS => ?_
    have hS' := Finset.mem_powerset.1 hS
    have hc1 : (insert j S).card = (insert i S).card := by
      rw [Finset.card_insert_of_notMem (fun hc => hjQ (hS' hc)), Finset.card_insert_of_notMem (fun hc => hiQ (hS' hc))]
    rw [hc1, Finset.insert_comm i j S,
      h S (hS'.trans ((Finset.erase_subset _ _).trans (Finset.erase_subset _ _))) (fun hc => hiQ (hS' hc)) (fun hc => hjQ (hS' hc))]

/-- The claim of C114: the value of a column is the Shapley value of its player in the game of `compute_exp`. -/
def C114_claim : Prop :=
  ∀ (ts : List TreeArr) (m : Nat), (∀ t ∈ ts, WellFormed t m) → ∀ (data : List Row), data ≠ [] → ∀ (C : List (List Nat)), ValidGroups m C →
    m < ulongMax → ∀ (cols : Finset (List Nat) → List Nat), ListsColumns cols → ∀ (x : Row) (k : Nat), ∀ g ∈ playerSet m C, ∀ j ∈ g,
      shapCy ts m data C x j k = shapley (playerSet m C) (fun S => expCy ts m data (cols S) x k) g

/-- **C114, partial**: if neither the observation nor a background row lies on a threshold, the value returned for every column is the
Shapley value of its player in the game `S ↦ compute_exp(S)`. Missing (false): entries equal to a threshold, where `compute_exp` counts
neighbouring leaves too. -/
theorem C114_shap_of_exp_partial {ts : List TreeArr} {m : Nat} (hts : ∀ t ∈ ts, WellFormed t m) {data : List Row} (hdata : data ≠ [])
    {C : List (List Nat)} (hC : ValidGroups m C) (hm : m < ulongMax) {cols : Finset (List Nat) → List Nat} (hcols : ListsColumns cols)
    {x : Row} (k : Nat) (hx : ∀ t ∈ ts, OffSplits t x) (hd : ∀ t ∈ ts, ∀ z ∈ data, OffSplits t z) {g : List Nat} (hg : g ∈ playerSet m C)
    {j : Nat} (hj : j ∈ g) :
    shapCy ts m data C x j k = shapley (playerSet m C) (fun S => expCy ts m data (cols S) x k) g := by
  rw [C06_leaf_estimator_is_shapley_value hts hdata hC hm x k hg hj]
  congr 1
  funext S
  rw [expCy_eq hts (cols S) k hx hd]
  refine leafGame_cols ts m data x k fun s => ?_
  rw [← hcols S s]
  simp

/-- **C114, symmetry**: two players that `compute_exp` does not distinguish get the same value. -/
theorem C114_symmetry_partial {ts : List TreeArr} {m : Nat} (hts : ∀ t ∈ ts, WellFormed t m) {data : List Row} (hdata : data ≠ [])
    {C : List (List Nat)} (hC : ValidGroups m C) (hm : m < ulongMax) {cols : Finset (List Nat) → List Nat} (hcols : ListsColumns cols)
    {x : Row} (k : Nat) (hx : ∀ t ∈ ts, OffSplits t x) (hd : ∀ t ∈ ts, ∀ z ∈ data, OffSplits t z) {g h : List Nat} (hg : g ∈ playerSet m C)
    (hh : h ∈ playerSet m C) (hsym : ∀ S, S ⊆ playerSet m C → g ∉ S → h ∉ S →
      expCy ts m data (cols (insert g S)) x k = expCy ts m data (cols (insert h S)) x k)
    {i j : Nat} (hi : i ∈ g) (hj : j ∈ h) : shapCy ts m data C x i k = shapCy ts m data C x j k := by
  rw [C114_shap_of_exp_partial hts hdata hC hm hcols k hx hd hg hi, C114_shap_of_exp_partial hts hdata hC hm hcols k hx hd hh hj]
  exact shapley_symmetric hg hh hsym

/-- **C114, null players**: a player that never changes what `compute_exp` returns gets 0. -/
theorem C114_null_partial {ts : List TreeArr} {m : Nat} (hts : ∀ t ∈ ts, WellFormed t m) {data : List Row} (hdata : data ≠ [])
    {C : List (List Nat)} (hC : ValidGroups m C) (hm : m < ulongMax) {cols : Finset (List Nat) → List Nat} (hcols : ListsColumns cols)
    {x : Row} (k : Nat) (hx : ∀ t ∈ ts, OffSplits t x) (hd : ∀ t ∈ ts, ∀ z ∈ data, OffSplits t z) {g : List Nat} (hg : g ∈ playerSet m C)
    (hnull : ∀ S, S ⊆ playerSet m C → g ∉ S → expCy ts m data (cols (insert g S)) x k = expCy ts m data (cols S) x k) {j : Nat} (hj : j ∈ g) :
    shapCy ts m data C x j k = 0 := by
  rw [C114_shap_of_exp_partial hts hdata hC hm hcols k hx hd hg hj]
  unfold shapley
  refine Finset.sum_eq_zero fun S hS => ?_
  have hS' := Finset.mem_powerset.1 hS
  have := hnull S (hS'.trans (Finset.erase_subset _ _)) (fun hc => by simpa using hS' hc)
  simp only [this, sub_self, mul_zero]

/-- **C114, efficiency**: the values add up to the difference between `compute_exp` of all columns and of none. -/
theorem C114_efficiency_partial {ts : List TreeArr} {m : Nat} (hts : ∀ t ∈ ts, WellFormed t m) {data : List Row} (hdata : data ≠ [])
    (hm : m < ulongMax) {x : Row} (k : Nat) (hx : ∀ t ∈ ts, OffSplits t x) (hd : ∀ t ∈ ts, ∀ z ∈ data, OffSplits t z) :
    ∑ j ∈ Finset.range m, shapCy ts m data [[]] x j k = expCy ts m data (List.range m) x k - expCy ts m data [] x k := by
  have hps : playerSet m [[]] = (Finset.range m).image ([·]) := by
    ext c; simp [playerSet]
  have h := shapley_efficiency (playerSet m [[]]) (leafGame ts m data x k)
  have e1 : ∑ g ∈ playerSet m [[]], shapley (playerSet m [[]]) (leafGame ts m data x k) g = ∑ j ∈ Finset.range m, shapCy ts m data [[]] x j k := by
    conv_lhs => rw [hps]
    rw [Finset.sum_image (by intro a _ b _ h; simpa using h), ← hps]
    refine Finset.sum_congr rfl fun j hj => ?_
    exact (C06_leaf_estimator_is_shapley_value hts hdata (Or.inl rfl) hm x k (by rw [hps]; exact Finset.mem_image_of_mem _ hj)
      (List.mem_singleton.2 rfl)).symm
  rw [← e1, h, expCy_eq hts _ k hx hd, expCy_eq hts _ k hx hd]
  congr 1
  exact leafGame_cols ts m data x k fun s => by simp [hps]

/-- the columns of a coalition, from a list of its players -/
noncomputable def columnsOf (S : Finset (List Nat)) : List Nat := S.toList.flatten

theorem columnsOf_lists : ListsColumns columnsOf := by
  intro S s
  simp [columnsOf]

theorem expCy_mem {ts : List TreeArr} {m : Nat} {data : List Row} {S T : List Nat} {x : Row} {k : Nat} (h : ∀ s, s ∈ S ↔ s ∈ T) :
    expCy ts m data S x k = expCy ts m data T x k := by
  have ha : ∀ p : Nat → Bool, S.all p = T.all p := by
    intro p
    rw [Bool.eq_iff_iff, List.all_eq_true, List.all_eq_true]
    simp only [h]
  have h1 : ∀ r, satCC r S = satCC r T := fun r => funext fun z => ha _
  have h2 : ∀ r, sat r S = sat r T := fun r => funext fun z => ha _
  simp only [expCy, cnt, h1, h2]

/-- **C114 is false on thresholds**: with `x = (1, 1, 1)` on the threshold of `exTree` and a background row there the values add up to
`-15/2`, while `compute_exp` of all columns and of none differ by `55/2`. -/
theorem C114_false : ¬ C114_claim := by
  intro h
  have hts : ∀ t ∈ [exTree], WellFormed t 3 := by simp [exTree_wf3]
  have hg : ∀ j < 3, [j] ∈ playerSet 3 [[]] := by decide
  have key : ∀ j < 3, shapCy [exTree] 3 exData [[]] (fun _ => 1) j 0 =
      shapley (playerSet 3 [[]]) (fun S => expCy [exTree] 3 exData (columnsOf S) (fun _ => 1) 0) [j] := fun j hj =>
    h [exTree] 3 hts exData (by simp [exData]) [[]] (Or.inl rfl) (by decide) columnsOf columnsOf_lists (fun _ => 1) 0 [j] (hg j hj) j
      (List.mem_singleton.2 rfl)
  have he := shapley_efficiency (playerSet 3 [[]]) (fun S => expCy [exTree] 3 exData (columnsOf S) (fun _ => 1) 0)
  have hps : playerSet 3 [[]] = {[0], [1], [2]} := by decide
  have ea : expCy [exTree] 3 exData (columnsOf (playerSet 3 [[]])) (fun _ => 1) 0 = 50 := by
    rw [expCy_mem (T := [0, 1, 2]) (by intro s; rw [columnsOf_lists, hps]; simp)]
    decide +kernel
  have en : expCy [exTree] 3 exData (columnsOf ∅) (fun _ => 1) 0 = 45/2 := by
    rw [expCy_mem (T := []) (by intro s; rw [columnsOf_lists]; simp)]
    decide +kernel
  rw [ea, en] at he
  conv_lhs at he => rw [hps]
  rw [Finset.sum_insert (by decide), Finset.sum_insert (by decide), Finset.sum_singleton, ← hps, ← key 0 (by decide), ← key 1 (by decide),
    ← key 2 (by decide)] at he
  revert he
  decide +kernel

example : (∀ t ∈ [exTree], WellFormed t 3) ∧ exData2 ≠ [] ∧ ValidGroups 3 [[2, 1]] ∧ (∀ t ∈ [exTree], OffSplits t fun _ => 2) ∧
    (∀ t ∈ [exTree], ∀ z ∈ exData2, OffSplits t z) ∧ shapCy [exTree] 3 exData2 [[]] (fun _ => 2) 0 0 = 25/4 ∧
    expCy [exTree] 3 exData2 [0, 1, 2] (fun _ => 2) 0 - expCy [exTree] 3 exData2 [] (fun _ => 2) 0 = 5/2 := by
  refine ⟨by simp [exTree_wf3], by simp [exData2], exGroups_valid, ?_, exData2_off, ?_, ?_⟩
  · intro t ht
    rw [List.mem_singleton.1 ht]
    exact C20_background_row_on_threshold.2.1
  · decide +kernel
  · decide +kernel

end Acv
