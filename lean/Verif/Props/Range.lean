import Verif.Props.SameModel
import Verif.Props.Normalized
import Verif.Lemmas.SdpReg

/-!
# C126: explanations and the range of the predictions

A conditional expectation of the predictions cannot leave their range. `compute_exp_cat` and the normalised version keep it, `compute_exp` and the Shapley
values do not, but they have bounds in terms of the values of the leaves.
-/

namespace Acv

theorem meanOver_ge {rows : List Row} (hne : rows ≠ []) {P : Row → ℚ} {c : ℚ} (h : ∀ z ∈ rows, c ≤ P z) : c ≤ meanOver rows P := by
  have h1 := meanOver_le hne (P := fun z => - P z) (c := -c) fun z hz => neg_le_neg (h z hz)
  have h2 : meanOver rows (fun z => - P z) = - meanOver rows P := by
    unfold meanOver
    rw [show (rows.map fun z => - P z).sum = - (rows.map P).sum from ?_, neg_div]
    induction rows with
    | nil => simp
    | cons a l ih =>
      rcases eq_or_ne l [] with rfl | hl
      · simp
      · have := ih hl (fun z hz => h z (List.mem_cons_of_mem _ hz)) (meanOver_le hl fun z hz => neg_le_neg (h z (List.mem_cons_of_mem _ hz)))
        simp only [List.map_cons, List.sum_cons, this]
        ring
  rw [h2] at h1
  linarith

/-- **C126 for `compute_exp_cat`.** If some data row has the values of `x` on `S`, the result plus the base value is between any two bounds on the predictions
of those rows. -/
theorem C126_cat {ts : List TreeArr} {m : Nat} (hts : ∀ t ∈ ts, WellFormed t m) (data : List Row) {S : List Nat} (hS : ∀ s ∈ S, s < m) (x : Row) (k : Nat)
    (base : Nat → ℚ) (P : Row → ℚ) (hP : ∀ z, ensemblePredict ts none none base (full z) k = some (P z)) {lo hi : ℚ}
    (hr : ∀ z ∈ data, (∀ s ∈ S, z s = x s) → lo ≤ P z ∧ P z ≤ hi) (hne : ∃ z ∈ data, ∀ s ∈ S, z s = x s) :
    lo ≤ expCatCy ts m data S x k + base k ∧ expCatCy ts m data S x k + base k ≤ hi := by
  have hm : ∀ z, z ∈ matching S x data ↔ z ∈ data ∧ ∀ s ∈ S, z s = x s := by
    intro z
    rw [matching_eq, List.mem_filter, eqOn_iff]
  obtain ⟨z, hz, hzs⟩ := hne
  have hne' : matching S x data ≠ [] := List.ne_nil_of_mem ((hm z).2 ⟨hz, hzs⟩)
  rw [(C20_cat_is_conditional_mean hts data hS x k base P hP).1 hne', sub_add_cancel]
  exact ⟨meanOver_ge hne' fun z hz => (hr z ((hm z).1 hz).1 ((hm z).1 hz).2).1, meanOver_le hne' fun z hz => (hr z ((hm z).1 hz).1 ((hm z).1 hz).2).2⟩

/-- A convex combination stays between bounds. -/
theorem convex_between {l : List Nat} {w v : Nat → ℚ} {lo hi : ℚ} (hw : ∀ a ∈ l, 0 ≤ w a) (h1 : (l.map w).sum = 1) (hv : ∀ a ∈ l, lo ≤ v a ∧ v a ≤ hi) :
    lo ≤ (l.map fun a => v a * w a).sum ∧ (l.map fun a => v a * w a).sum ≤ hi := by
  have key : ∀ l : List Nat, (∀ a ∈ l, 0 ≤ w a) → (∀ a ∈ l, lo ≤ v a ∧ v a ≤ hi) →
      lo * (l.map w).sum ≤ (l.map fun a => v a * w a).sum ∧ (l.map fun a => v a * w a).sum ≤ hi * (l.map w).sum := by
    intro l
    induction l with
    | nil => intro _ _; simp
    | cons a l ih =>
      intro hw hv
      obtain ⟨i1, i2⟩ := ih (fun b hb => hw b (List.mem_cons_of_mem _ hb)) (fun b hb => hv b (List.mem_cons_of_mem _ hb))
      have ha := hw a (by simp)
      obtain ⟨v1, v2⟩ := hv a (by simp)
      simp only [List.map_cons, List.sum_cons, mul_add]
      exact ⟨add_le_add (mul_le_mul_of_nonneg_right v1 ha) i1, add_le_add (mul_le_mul_of_nonneg_right v2 ha) i2⟩
  have := key l hw hv
  rwa [h1, mul_one, mul_one] at this

/-- **C126 for the normalised `compute_exp`.** If every leaf holds a data row, the result is a number between the sums over the trees of any bounds on the
values of their leaves. -/
theorem C126_norm {ts : List TreeArr} {m : Nat} (hts : ∀ t ∈ ts, WellFormed t m) {data : List Row} (hcov : LeavesCovered ts data) {S : List Nat}
    (hS : ∀ s ∈ S, s < m) (x : Row) (k : Nat) {lo hi : TreeArr → ℚ} (hr : ∀ t ∈ ts, ∀ ℓ ∈ t.leafIdx, lo t ≤ t.value ℓ k ∧ t.value ℓ k ≤ hi t) :
    ∃ e, expNormCy ts m data S x k = some e ∧ (ts.map lo).sum ≤ e ∧ e ≤ (ts.map hi).sum := by
  obtain ⟨w, hw, he⟩ := C72_convex_combination hts hcov hS x
  refine ⟨_, he k, List.sum_le_sum fun t ht => ?_, List.sum_le_sum fun t ht => ?_⟩
  · exact (convex_between (hw t ht).1 (hw t ht).2.1 (hr t ht)).1
  · exact (convex_between (hw t ht).1 (hw t ht).2.1 (hr t ht)).2

/-! ## Bounds for the other estimators -/

theorem shapW_nonneg (n s : Nat) : 0 ≤ shapW n s := by
  unfold shapW
  exact div_nonneg (mul_nonneg (Nat.cast_nonneg _) (Nat.cast_nonneg _)) (Nat.cast_nonneg _)

theorem shapW_total {ι : Type} [DecidableEq ι] {P : Finset ι} {i : ι} (hi : i ∈ P) : ∑ S ∈ (P.erase i).powerset, shapW P.card S.card = 1 := by
  have h := shapley_efficiency P (fun S => if i ∈ S then (1 : ℚ) else 0)
  rw [Finset.sum_eq_single i] at h
  · simp only [hi, if_true, Finset.notMem_empty, if_false, sub_zero] at h
    rw [← h]
    unfold shapley
    refine Finset.sum_congr rfl fun S hS => ?_
    have : i ∉ S := fun hh => (Finset.notMem_erase i P) (Finset.mem_powerset.1 hS hh)
    simp [this]
  · intro j _ hj
    apply shapley_null
    intro S
    simp [Finset.mem_insert, hj.symm]
  · exact fun hh => absurd hi hh

/-- A Shapley value is at most the largest marginal contribution. -/
theorem shapley_abs_le {ι : Type} [DecidableEq ι] {P : Finset ι} {v : Finset ι → ℚ} {i : ι} (hi : i ∈ P) {c : ℚ}
    (h : ∀ S, S ⊆ P.erase i → |v (insert i S) - v S| ≤ c) : |shapley P v i| ≤ c := by
  unfold shapley
  calc _ ≤ ∑ S ∈ (P.erase i).powerset, |shapW P.card S.card * (v (insert i S) - v S)| := Finset.abs_sum_le_sum_abs _ _
    _ ≤ ∑ S ∈ (P.erase i).powerset, shapW P.card S.card * c := by
      refine Finset.sum_le_sum fun S hS => ?_
      rw [abs_mul, abs_of_nonneg (shapW_nonneg _ _)]
      exact mul_le_mul_of_nonneg_left (h S (Finset.mem_powerset.1 hS)) (shapW_nonneg _ _)
    _ = c := by rw [← Finset.sum_mul, shapW_total hi, one_mul]

theorem leafShare_range {d : Nat} (data : List Row) (r : Rect) (x : Row) {S : Finset (List Nat)} (hS : ∀ g ∈ S, ∀ s ∈ g, s < d) :
    0 ≤ leafShare d data r x S ∧ leafShare d data r x S ≤ 1 := by
  classical
  unfold leafShare
  split
  · refine ⟨div_nonneg (Nat.cast_nonneg _) (Nat.cast_nonneg _), div_le_one_of_le₀ ?_ (Nat.cast_nonneg _)⟩
    have : (data.filter (fun z => InBox d r z)).length ≤ (data.filter (fun z => AgreesOn r S z)).length := by
      apply List.Sublist.length_le
      apply List.monotone_filter_right
      intro z hz
      simp only [decide_eq_true_eq] at hz ⊢
      exact fun g hg s hs => hz s (hS g hg s hs)
    exact_mod_cast this
  · exact ⟨le_refl _, zero_le_one⟩

/-- The rectangle of the leaf has a bound on a column of `g`: one of them is tested on the way to the leaf. -/
def BoundOn (r : Rect) (g : List Nat) : Prop := ∃ s ∈ g, (r s).lo ≠ none ∨ (r s).hi ≠ none

theorem leafShare_free {d : Nat} (data : List Row) {r : Rect} (x : Row) {g : List Nat} (hg : ¬ BoundOn r g) (S : Finset (List Nat)) :
    leafShare d data r x (insert g S) = leafShare d data r x S := by
  have ha : ∀ z, AgreesOn r (insert g S) z ↔ AgreesOn r S z := by
    intro z
    unfold AgreesOn
    constructor
    · exact fun h g' hg' => h g' (Finset.mem_insert_of_mem hg')
    · intro h g' hg' s hs
      rcases Finset.mem_insert.1 hg' with rfl | hg'
      · have hn : (r s).lo = none ∧ (r s).hi = none := by
          by_contra hc
          exact hg ⟨s, hs, by tauto⟩
        simp [hn.1, hn.2]
      · exact h g' hg' s hs
  unfold leafShare
  rw [show AgreesOn r (insert g S) = AgreesOn r S from funext fun z => propext (ha z)]

open Classical in
/-- **C126 for the Shapley values, what holds.** A Shapley value is at most the sum of the sizes of the values of the leaves that test a column of the player. -/
theorem C126_shap_partial {ts : List TreeArr} {m : Nat} (hts : ∀ t ∈ ts, WellFormed t m) {data : List Row} (hdata : data ≠ []) {C : List (List Nat)}
    (hC : ValidGroups m C) (hm : m < ulongMax) (x : Row) (k : Nat) {g : List Nat} (hg : g ∈ playerSet m C) {j : Nat} (hj : j ∈ g) :
    |shapCy ts m data C x j k| ≤ (ts.map fun t => (t.leafIdx.map fun ℓ => if BoundOn (t.leafRect ℓ) g then |t.value ℓ k| else 0).sum).sum := by
  rw [C06_leaf_estimator_is_shapley_value hts hdata hC hm x k hg hj]
  have habs : ∀ {κ : Type} (l : List κ) (f b : κ → ℚ), (∀ a ∈ l, |f a| ≤ b a) → |(l.map f).sum| ≤ (l.map b).sum := by
    intro κ l f b
    induction l with
    | nil => intro _; simp
    | cons a l ih =>
      intro h
      simp only [List.map_cons, List.sum_cons]
      exact (abs_add_le _ _).trans (add_le_add (h a (by simp)) (ih fun b hb => h b (List.mem_cons_of_mem _ hb)))
  unfold leafGame
  rw [shapley_sum]
  refine habs _ _ _ fun t _ => ?_
  rw [shapley_sum]
  refine habs _ _ _ fun ℓ _ => ?_
  rw [shapley_mul, abs_mul]
  split
  · have : |shapley (playerSet m C) (leafShare m data (t.leafRect ℓ) x) g| ≤ 1 := by
      apply shapley_abs_le hg
      intro S hS
      have hS' : ∀ g' ∈ insert g S, ∀ s ∈ g', s < m := by
        intro g' hg'
        rcases Finset.mem_insert.1 hg' with rfl | hg'
        · exact (playerSet_lt hC hg).2.2
        · exact (playerSet_lt hC (Finset.mem_of_mem_erase (hS hg'))).2.2
      obtain ⟨a1, a2⟩ := leafShare_range data (t.leafRect ℓ) x hS'
      obtain ⟨b1, b2⟩ := leafShare_range data (t.leafRect ℓ) x (S := S) fun g' hg' => hS' g' (Finset.mem_insert_of_mem hg')
      rw [abs_le]
      constructor <;> linarith
    calc _ ≤ |t.value ℓ k| * 1 := mul_le_mul_of_nonneg_left this (abs_nonneg _)
      _ = _ := mul_one _
  · next h => rw [shapley_null fun S => leafShare_free data x h S, abs_zero, mul_zero]

open Classical in
/-- **C126 for `compute_exp`, what holds.** Off the thresholds the result is at most the sum of the sizes of the values of the leaves that `x` can reach
when only the columns of `S` are known. -/
theorem C126_exp_partial {ts : List TreeArr} {m : Nat} (hts : ∀ t ∈ ts, WellFormed t m) {data : List Row} {S : List Nat} (hS : ∀ s ∈ S, s < m) {x : Row}
    (k : Nat) (hx : ∀ t ∈ ts, OffSplits t x) (hd : ∀ t ∈ ts, ∀ z ∈ data, OffSplits t z) :
    |expCy ts m data S x k| ≤ (ts.map fun t => (t.leafIdx.map fun ℓ =>
      if ∀ s ∈ S, (∀ l, (t.leafRect ℓ s).lo = some l → l < x s) ∧ ∀ h, (t.leafRect ℓ s).hi = some h → x s ≤ h then |t.value ℓ k| else 0).sum).sum := by
  rw [expCy_eq hts S k hx hd]
  have habs : ∀ {κ : Type} (l : List κ) (f b : κ → ℚ), (∀ a ∈ l, |f a| ≤ b a) → |(l.map f).sum| ≤ (l.map b).sum := by
    intro κ l f b
    induction l with
    | nil => intro _; simp
    | cons a l ih =>
      intro h
      simp only [List.map_cons, List.sum_cons]
      exact (abs_add_le _ _).trans (add_le_add (h a (by simp)) (ih fun b hb => h b (List.mem_cons_of_mem _ hb)))
  unfold leafGame
  refine habs _ _ _ fun t _ => habs _ _ _ fun ℓ _ => ?_
  have hS' : ∀ g ∈ (S.map ([·])).toFinset, ∀ s ∈ g, s < m := by
    intro g hg s hs
    simp only [List.mem_toFinset, List.mem_map] at hg
    obtain ⟨a, ha, rfl⟩ := hg
    rw [List.mem_singleton.1 hs]
    exact hS a ha
  obtain ⟨a1, a2⟩ := leafShare_range data (t.leafRect ℓ) x hS'
  rw [abs_mul, abs_of_nonneg a1]
  split
  · calc _ ≤ |t.value ℓ k| * 1 := mul_le_mul_of_nonneg_left a2 (abs_nonneg _)
      _ = _ := mul_one _
  · next h =>
    have : leafShare m data (t.leafRect ℓ) x (S.map ([·])).toFinset = 0 := by
      unfold leafShare
      rw [if_neg]
      intro hA
      exact h fun s hs => hA [s] (by simpa using hs) s (by simp)
    rw [this, mul_zero]

/-! ## `compute_exp` and the Shapley values leave the range -/

/-- A model that predicts 1 for every row: the tree of `bothAbove 1 0` with 1 in all leaves. -/
def oneTree : TreeArr := { bothAbove 1 0 with value := fun _ _ => 1 }

theorem oneTree_isTree : IsTree oneTree 2 (.node 0 1 1 (.leaf 1) (.node 2 0 1 (.leaf 3) (.leaf 4))) where
  root := rfl
  enc := by simp [Encodes, oneTree, bothAbove, exTree, BTree.id]
  nodup := by simp [BTree.ids]
  all := (bothAbove_isTree (a := 1) (b := 0) (by norm_num) (by norm_num)).all
  vars := by simp [BTree.vars]

theorem oneTree_wf : ∀ t ∈ [oneTree], WellFormed t 2 := by
  intro t ht
  rw [List.mem_singleton.mp ht]
  exact ⟨_, oneTree_isTree⟩

theorem oneTree_predict (z : Row) : ensemblePredict [oneTree] none none (fun _ => 0) (full z) 0 = some 1 := by
  have h := (C03_predict_is_sum_of_leaf_values (ts := [oneTree]) (d := 2) oneTree_wf none none (fun _ => 0)
    (full z) 0).2 (fun _ => (BTree.node 0 1 1 (.leaf 1) (.node 2 0 1 (.leaf 3) (.leaf 4))).descend z) (by
      intro t ht
      rw [List.mem_singleton.mp ht, endsIn_iff oneTree_isTree, descendObs_full])
  rw [h]
  have h2 : effLimit [oneTree].length none none = 1 := by rw [C03_tree_limit]; rfl
  rw [h2]
  simp [oneTree]

/-- The claim of C126 for an estimator with two columns: between any two bounds on all predictions. -/
def C126_claim (f : List TreeArr → List Row → Row → ℚ) : Prop := ∀ (ts : List TreeArr), (∀ t ∈ ts, WellFormed t 2) → ∀ (P : Row → ℚ),
  (∀ z, ensemblePredict ts none none (fun _ => 0) (full z) 0 = some (P z)) → ∀ (lo hi : ℚ), (∀ z, lo ≤ P z ∧ P z ≤ hi) →
  ∀ (data : List Row) (x : Row), x ∈ data → (∀ t ∈ ts, ∀ z ∈ data, OffSplits t z) → lo ≤ f ts data x ∧ f ts data x ≤ hi

/-- The claim of C126 for the Shapley values: the values of a constant model are 0. -/
def C126_constant_claim (f : List TreeArr → List Row → Row → ℚ) : Prop := ∀ (ts : List TreeArr), (∀ t ∈ ts, WellFormed t 2) → ∀ c : ℚ,
  (∀ z, ensemblePredict ts none none (fun _ => 0) (full z) 0 = some c) →
  ∀ (data : List Row) (x : Row), x ∈ data → (∀ t ∈ ts, ∀ z ∈ data, OffSplits t z) → f ts data x = 0

def diagRows : List Row := [fun _ => 2, fun _ => 0]

theorem oneTree_off : ∀ t ∈ [oneTree], ∀ z ∈ diagRows, OffSplits t z := by
  intro t ht
  rw [List.mem_singleton.mp ht]
  unfold OffSplits
  decide +kernel

/-- **C126 is false of `compute_exp`, in both implementations, and of the Shapley values**: for a model that predicts 1 for every row, `compute_exp` returns
3/2 and the columns get values that are not 0. -/
theorem C126_false : ¬ C126_claim (fun ts data x => expCy ts 2 data [0] x 0) ∧
    ¬ C126_claim (fun ts data x => (expPy ts 2 data [0] x 0).toOption.getD 0) ∧
    ¬ C126_constant_claim (fun ts data x => shapCy ts 2 data [[]] x 0 0) := by
  refine ⟨fun h => ?_, fun h => ?_, fun h => ?_⟩
  · have := (h [oneTree] oneTree_wf (fun _ => 1) oneTree_predict 1 1 (fun _ => ⟨le_refl _, le_refl _⟩) diagRows (fun _ => 2) (by simp [diagRows]) oneTree_off).2
    revert this
    decide +kernel
  · have := (h [oneTree] oneTree_wf (fun _ => 1) oneTree_predict 1 1 (fun _ => ⟨le_refl _, le_refl _⟩) diagRows (fun _ => 2) (by simp [diagRows]) oneTree_off).2
    revert this
    decide +kernel
  · have := h [oneTree] oneTree_wf 1 oneTree_predict diagRows (fun _ => 2) (by simp [diagRows]) oneTree_off
    revert this
    decide +kernel

/-- The hypotheses of the bounds on the same model: the bound of `C126_exp_partial` is 2 here (the leaves 1 and 4), and column 0 is tested for two leaves. -/
example : (∀ t ∈ [oneTree], OffSplits t fun _ => 2) ∧ LeavesCovered [exTree] exData3 ∧ ValidGroups 2 [[]] ∧
    BoundOn (oneTree.leafRect 3) [0] ∧ BoundOn (oneTree.leafRect 4) [0] ∧ ¬ BoundOn (oneTree.leafRect 1) [0] := by
  refine ⟨fun t ht => oneTree_off t ht _ (by simp [diagRows]), exData3_covered, Or.inl rfl, ?_, ?_, ?_⟩ <;> unfold BoundOn <;> decide +kernel

/-- The values of the counterexample, and the estimators that keep the range on it. -/
example : expCy [oneTree] 2 diagRows [0] (fun _ => 2) 0 = 3 / 2 ∧ expCatCy [oneTree] 2 diagRows [0] (fun _ => 2) 0 = 1 ∧
    shapCy [oneTree] 2 diagRows [[]] (fun _ => 2) 0 0 + shapCy [oneTree] 2 diagRows [[]] (fun _ => 2) 1 0 = 0 := by decide +kernel

end Acv
