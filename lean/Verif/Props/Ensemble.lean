import Verif.Lemmas.Ensemble
import Mathlib.Analysis.SpecialFunctions.Exponential

/-!
# C61, C63, C64, C65: ensembles
-/

namespace Acv

/-! ## C61: averages and boosting -/

/-- **C61, regression forests.** `predict` returns the average of the values of the leaves in which `x` ends in the fitted trees. -/
theorem C61_regressor {raws : List TreeArr} {d : Nat} (h : ∀ t ∈ raws, WellFormed t d) (K : Nat) (x : Row) (k : Nat)
    (leaf : TreeArr → Nat) (hleaf : ∀ t ∈ raws, EndsIn t (full x) (leaf t)) :
    ensemblePredict (skForest false K raws) none none (fun _ => 0) (full x) k =
      some ((raws.map fun t => t.value (leaf t) k).sum / raws.length) := by
  unfold skForest
  rw [predict_map (fun a ha => wf_sk _ _ _ (h a ha)) _ _ _ leaf fun a ha => endsIn_sk _ _ _ (hleaf a ha)]
  congr 1
  rw [zero_add, ← list_sum_div]
  simp [skTree, div_eq_mul_inv]

/-- **C61, classification forests.** `predict` returns, for each class, the average of the class frequencies of the leaves of the fitted
trees; these are probabilities that sum to 1. The fitted leaves hold non-negative counts, not all zero. -/
theorem C61_classifier {raws : List TreeArr} {d : Nat} (h : ∀ t ∈ raws, WellFormed t d) (hne : raws ≠ []) {K : Nat} (x : Row)
    (leaf : TreeArr → Nat) (hleaf : ∀ t ∈ raws, EndsIn t (full x) (leaf t))
    (hpos : ∀ t ∈ raws, (∀ k < K, 0 ≤ t.value (leaf t) k) ∧ 0 < ((List.range K).map fun c => t.value (leaf t) c).sum) :
    ∃ p : Nat → ℚ, (∀ k, ensemblePredict (skForest true K raws) none none (fun _ => 0) (full x) k = some (p k)) ∧
      (∀ k, p k = (raws.map fun t => t.value (leaf t) k / ((List.range K).map fun c => t.value (leaf t) c).sum).sum / raws.length) ∧
      (∀ k < K, 0 ≤ p k ∧ p k ≤ 1) ∧ ((List.range K).map p).sum = 1 := by
  have hn : (0 : ℚ) < raws.length := by exact_mod_cast List.length_pos_of_ne_nil hne
  refine ⟨fun k => (raws.map fun t => t.value (leaf t) k / ((List.range K).map fun c => t.value (leaf t) c).sum).sum / raws.length,
    ?_, fun _ => rfl, ?_, ?_⟩
  · intro k
    unfold skForest
    rw [predict_map (fun a ha => wf_sk _ _ _ (h a ha)) _ _ _ leaf fun a ha => endsIn_sk _ _ _ (hleaf a ha)]
    congr 1
    rw [zero_add]
    beta_reduce
    rw [← list_sum_div]
    simp [skTree, div_eq_mul_inv]
  · intro k hk
    have hterm : ∀ t ∈ raws, 0 ≤ t.value (leaf t) k / ((List.range K).map fun c => t.value (leaf t) c).sum ∧
        t.value (leaf t) k / ((List.range K).map fun c => t.value (leaf t) c).sum ≤ 1 := by
      intro t ht
      obtain ⟨h0, hs⟩ := hpos t ht
      refine ⟨div_nonneg (h0 k hk) hs.le, (div_le_one hs).2 ?_⟩
      apply List.single_le_sum (l := (List.range K).map fun c => t.value (leaf t) c)
      · intro v hv
        obtain ⟨c, hc, rfl⟩ := List.mem_map.1 hv
        exact h0 c (List.mem_range.1 hc)
      · exact List.mem_map.2 ⟨k, List.mem_range.2 hk, rfl⟩
    constructor
    · refine div_nonneg (List.sum_nonneg ?_) hn.le
      intro v hv
      obtain ⟨t, ht, rfl⟩ := List.mem_map.1 hv
      exact (hterm t ht).1
    · rw [div_le_one hn]
      have := List.sum_le_card_nsmul (raws.map fun t => t.value (leaf t) k / ((List.range K).map fun c => t.value (leaf t) c).sum) 1
        (by
          intro v hv
          obtain ⟨t, ht, rfl⟩ := List.mem_map.1 hv
          exact (hterm t ht).2)
      simpa using this
  · rw [list_sum_div]
    have hswap : ((List.range K).map fun k => (raws.map fun t =>
        t.value (leaf t) k / ((List.range K).map fun c => t.value (leaf t) c).sum).sum).sum =
        (raws.map fun t => ((List.range K).map fun k => t.value (leaf t) k / ((List.range K).map fun c => t.value (leaf t) c).sum).sum).sum := by
      clear hpos hn hne h hleaf
      induction raws with
      | nil => simp
      | cons t raws ih => simp only [List.map_cons, List.sum_cons, List.sum_map_add, ih]
    rw [hswap]
    have hone : (raws.map fun t => ((List.range K).map fun k => t.value (leaf t) k / ((List.range K).map fun c => t.value (leaf t) c).sum).sum) =
        raws.map fun _ => (1 : ℚ) := by
      apply List.map_congr_left
      intro t ht
      rw [list_sum_div]
      exact div_self (hpos t ht).2.ne'
    rw [hone]
    simp [hn.ne']

/-- **C61, boosting.** `predict` returns the initial value plus the learning rate times the sum of the values of the leaves. -/
theorem C61_boosting {raws : List TreeArr} {d : Nat} (h : ∀ t ∈ raws, WellFormed t d) (rate : ℚ) (base : Nat → ℚ) (x : Row) (k : Nat)
    (leaf : TreeArr → Nat) (hleaf : ∀ t ∈ raws, EndsIn t (full x) (leaf t)) :
    ensemblePredict (skBoost rate raws) none none base (full x) k = some (base k + rate * (raws.map fun t => t.value (leaf t) k).sum) := by
  unfold skBoost
  rw [predict_map (fun a ha => wf_sk _ _ _ (h a ha)) _ _ _ leaf fun a ha => endsIn_sk _ _ _ (hleaf a ha)]
  congr 2
  rw [← List.sum_map_mul_left]
  simp [skTree, mul_comm]

/-- **C61, single trees.** Each loaded tree alone predicts what the fitted tree predicts, without the scaling. -/
theorem C61_single {raw : TreeArr} {d : Nat} (h : WellFormed raw d) {s : ℚ} (hs : s ≠ 0) (K : Nat) (x : Row) (k : Nat) {ℓ : Nat}
    (hleaf : EndsIn raw (full x) ℓ) :
    singlePredict (skTree false s K raw) s (full x) k = some (raw.value ℓ k) := by
  unfold singlePredict
  have hwf : ∀ t ∈ [{ skTree false s K raw with value := fun n k => (skTree false s K raw).value n k / s }], WellFormed t d := by
    intro t ht
    rw [List.mem_singleton.1 ht]
    obtain ⟨b, hb⟩ := wf_sk false s K h
    exact ⟨b, isTree_value _ hb⟩
  have := (C03_predict_is_sum_of_leaf_values hwf none (some 1) (fun _ => 0) (full x) k).2 (fun _ => ℓ) (by
    intro t ht
    rw [List.mem_singleton.1 ht]
    refine endsIn_full_congr raw { skTree false s K raw with value := _ } ?_ ?_ ?_ ?_ hleaf <;> rfl)
  rw [this]
  simp [effLimit, skTree, hs]

/-- Two stumps over one column, with class counts in the leaves. -/
def exStump (a b c d : ℚ) : TreeArr where
  size := 3
  left := fun n => [1, -1, -1].getD n (-1)
  right := fun n => [2, -1, -1].getD n (-1)
  dflt := fun n => [1, -1, -1].getD n (-1)
  feature := fun n => [0, -2, -2].getD n (-2)
  threshold := fun n => [1 / 2, -2, -2].getD n (-2)
  value := fun n k => if k = 0 then [a + c, a, c].getD n 0 else [b + d, b, d].getD n 0
  weight := fun n => [2, 1, 1].getD n 0

theorem exStump_wf (a b c d : ℚ) : WellFormed (exStump a b c d) 1 :=
  ⟨.node 0 0 (1 / 2) (.leaf 1) (.leaf 2), rfl, by refine ⟨?_, ?_, ?_, ?_, ?_, ⟨?_, ?_⟩, ⟨?_, ?_⟩⟩ <;> first | rfl | exact Or.inl rfl | (show (-1 : Int) < 0; decide),
    by decide, by intro n; simp only [BTree.ids, exStump, List.mem_cons, List.mem_append, List.not_mem_nil, or_false]; omega, by decide⟩

theorem exStump_ends (a b c d : ℚ) : EndsIn (exStump a b c d) (full fun _ => 1) 2 :=
  ⟨.step (m := 2) ⟨(by decide : (0 : Int) ≤ 1), Or.inr ⟨(by decide +kernel : (1 / 2 : ℚ) < 1), rfl⟩⟩ (.refl _), (by decide : (-1 : Int) < 0)⟩

/-- The hypotheses of C61 hold for a forest of two stumps, with the probabilities 3/8 and 5/8. -/
example : (∀ t ∈ [exStump 1 3 1 1, exStump 2 2 1 3], WellFormed t 1 ∧ EndsIn t (full fun _ => 1) 2 ∧
      (∀ k < 2, 0 ≤ t.value 2 k) ∧ 0 < ((List.range 2).map fun c => t.value 2 c).sum) ∧
    ensemblePredict (skForest true 2 [exStump 1 3 1 1, exStump 2 2 1 3]) none none (fun _ => 0) (full fun _ => 1) 0 = some (3 / 8) ∧
    ensemblePredict (skForest true 2 [exStump 1 3 1 1, exStump 2 2 1 3]) none none (fun _ => 0) (full fun _ => 1) 1 = some (5 / 8) := by
  refine ⟨?_, by decide +kernel, by decide +kernel⟩
  intro t ht
  rcases List.mem_cons.1 ht with rfl | ht
  · exact ⟨exStump_wf .., exStump_ends .., by decide +kernel, by decide +kernel⟩
  · rw [List.mem_singleton.1 ht]
    exact ⟨exStump_wf .., exStump_ends .., by decide +kernel, by decide +kernel⟩

/-! ## C63: one model per class -/

/-- The trees of a boosted multi-class model in the order of the file: for every round one tree per class. -/
def IsRounds (K : Nat) (rounds : List (List TreeArr)) : Prop := ∀ r ∈ rounds, r.length = K

theorem stack_flatten {K : Nat} (hK : 0 < K) {β : Type} (g : TreeArr → Nat → β) : ∀ (rounds : List (List TreeArr)), IsRounds K rounds → ∀ s : Nat, s % K = 0 →
    (rounds.flatten.zipIdx s).map (fun p => g p.1 (p.2 % K)) = rounds.flatMap fun r => r.zipIdx.map fun p => g p.1 p.2
  | [], _, _, _ => rfl
  | r :: rounds, h, s, hs => by
    have hr : r.length = K := h r List.mem_cons_self
    rw [List.flatten_cons, List.zipIdx_append, List.map_append, List.flatMap_cons,
      stack_flatten hK g rounds (fun r hr => h r (List.mem_cons_of_mem _ hr)) _ (by rw [hr]; simp [hs])]
    congr 1
    apply List.ext_getElem
    · simp
    · intro i h1 h2
      have hi : i < r.length := by simpa using h1
      simp only [List.getElem_map, List.getElem_zipIdx, zero_add]
      congr 1
      rw [Nat.add_mod, hs, zero_add, Nat.mod_mod, Nat.mod_eq_of_lt (by omega)]

/-- **C63.** For a model with one tree per class and round, output `k` is the offset plus the sum over the rounds of the value of the tree of
class `k` for the observation (missing values included). -/
theorem C63_stacked {K : Nat} (hK : 1 < K) {rounds : List (List TreeArr)} (hr : IsRounds K rounds) {d : Nat}
    (h : ∀ r ∈ rounds, ∀ t ∈ r, WellFormed t d) (base : Nat → ℚ) (x : Obs) (leaf : TreeArr → Nat)
    (hleaf : ∀ r ∈ rounds, ∀ t ∈ r, EndsIn t x (leaf t)) :
    ∃ ts, stackTrees K rounds.flatten = some ts ∧ ∀ k < K, ensemblePredict ts none none base x k =
      some (base k + (rounds.map fun r => (r.map fun t => t.value (leaf t) 0).getD k 0).sum) := by
  have hlen : rounds.flatten.length % K = 0 := by
    have : rounds.flatten.length = rounds.length * K := by
      rw [List.length_flatten]
      have : rounds.map List.length = rounds.map fun _ => K := List.map_congr_left fun r hm => hr r hm
      rw [this]; simp
    rw [this]; simp
  refine ⟨_, by unfold stackTrees; rw [if_pos hK, if_pos hlen], ?_⟩
  intro k hk
  have hmem : ∀ p ∈ rounds.flatten.zipIdx, ∃ r ∈ rounds, p.1 ∈ r := by
    intro p hp
    exact (List.mem_flatten.1 (List.fst_mem_of_mem_zipIdx hp)).imp fun r hr => hr
  rw [predict_map (l := rounds.flatten.zipIdx) (F := fun p => stackTree K p.2 p.1) (d := d) ?_ base x k (fun p => leaf p.1) ?_]
  · congr 2
    have := stack_flatten (K := K) (by omega) (fun t j => if k = j then t.value (leaf t) 0 else (0 : ℚ)) rounds hr 0 (by simp)
    have e : (rounds.flatten.zipIdx.map fun a => (stackTree K a.2 a.1).value (leaf a.1) k) =
        (rounds.flatten.zipIdx.map fun p => if k = p.2 % K then p.1.value (leaf p.1) 0 else (0 : ℚ)) := rfl
    rw [e, this, List.flatMap_def, List.sum_flatten, List.map_map]
    congr 1
    apply List.map_congr_left
    intro r hm
    have hrl := hr r hm
    have aux : ∀ (l : List TreeArr) (s : Nat), ((l.zipIdx s).map fun p => if k = p.2 then p.1.value (leaf p.1) 0 else (0 : ℚ)).sum =
        if s ≤ k then (l.map fun t => t.value (leaf t) 0).getD (k - s) 0 else 0 := by
      intro l
      induction l with
      | nil => intro s; simp
      | cons t l ih =>
        intro s
        rw [List.zipIdx_cons, List.map_cons, List.sum_cons, ih]
        by_cases h1 : k = s
        · subst h1; simp
        · by_cases h2 : s ≤ k
          · have h3 : s + 1 ≤ k := by omega
            rw [if_neg h1, if_pos h3, if_pos h2, zero_add, List.map_cons]
            have : k - s = (k - (s + 1)) + 1 := by omega
            rw [this, List.getD_cons_succ]
          · rw [if_neg h1, if_neg (by omega), if_neg h2, zero_add]
    refine (aux r 0).trans ?_
    simp
  · intro p hp
    obtain ⟨r, hm, ht⟩ := hmem p hp
    obtain ⟨b, hb⟩ := h r hm p.1 ht
    exact ⟨b, isTree_value _ hb⟩
  · intro p hp
    obtain ⟨r, hm, ht⟩ := hmem p hp
    obtain ⟨b, hb⟩ := h r hm p.1 ht
    have := hleaf r hm p.1 ht
    rw [endsIn_iff hb] at this
    rw [show stackTree K p.2 p.1 = { p.1 with value := fun n k => if k = p.2 % K then p.1.value n 0 else 0 } from rfl,
      endsIn_iff (isTree_value _ hb), descendObs_value]
    exact this

/-- **C63, incomplete rounds.** Otherwise the assertion on the number of trees fails. -/
theorem C63_incomplete {K : Nat} (hK : 1 < K) {ts : List TreeArr} (h : ¬ K ∣ ts.length) : stackTrees K ts = none := by
  unfold stackTrees
  rw [if_pos hK, if_neg (fun h' => h (Nat.dvd_of_mod_eq_zero h'))]

example : IsRounds 2 [[exStump 1 0 2 0, exStump 3 0 4 0], [exStump 5 0 6 0, exStump 7 0 8 0]] ∧
    ((stackTrees 2 [exStump 1 0 2 0, exStump 3 0 4 0, exStump 5 0 6 0, exStump 7 0 8 0]).bind fun ts =>
      ensemblePredict ts none none (fun _ => 10) (full fun _ => 1) 1) = some 22 := by
  constructor
  · unfold IsRounds; simp
  · decide +kernel

/-! ## C64: limiting the number of trees -/

/-- **C64, boosting.** For an ensemble that is summed, `predict(X, tree_limit=L)` is the prediction of the ensemble of the first `L` trees. -/
theorem C64_boosting_partial {ts : List TreeArr} {d : Nat} (h : ∀ t ∈ ts, WellFormed t d) (dl : Option Int) {L : Nat} (hL : L ≤ ts.length)
    (base : Nat → ℚ) (x : Obs) (k : Nat) :
    ensemblePredict ts dl (some (L : Int)) base x k = ensemblePredict (ts.take L) none none base x k := by
  classical
  have hex : ∀ t ∈ ts, ∃ ℓ, EndsIn t x ℓ := fun t ht => ((C03_predict_is_sum_of_leaf_values h none none base x k).1 t ht).exists
  let lf : TreeArr → Nat := fun t => if ht : t ∈ ts then (hex t ht).choose else 0
  have hlf : ∀ t ∈ ts, EndsIn t x (lf t) := by
    intro t ht
    have : lf t = (hex t ht).choose := dif_pos ht
    rw [this]
    exact (hex t ht).choose_spec
  have hsub : ∀ t ∈ ts.take L, t ∈ ts := fun t ht => List.mem_of_mem_take ht
  rw [(C03_predict_is_sum_of_leaf_values h dl (some (L : Int)) base x k).2 lf hlf,
    predict_all (fun t ht => h t (hsub t ht)) base x k lf fun t ht => hlf t (hsub t ht)]
  have : effLimit ts.length dl (some (L : Int)) = L := by
    rw [C03_tree_limit]
    simp [hL]
  rw [this]

/-- The claim of C64 for averaged forests: `predict(X, tree_limit=L)` is the average over the first `L` trees. -/
def C64_forest_claim : Prop :=
  ∀ (raws : List TreeArr) (d : Nat), (∀ t ∈ raws, WellFormed t d) → ∀ (K L : Nat), 0 < L → L ≤ raws.length → ∀ (x : Row) (k : Nat),
    ensemblePredict (skForest true K raws) none (some (L : Int)) (fun _ => 0) (full x) k =
      ensemblePredict (skForest true K (raws.take L)) none none (fun _ => 0) (full x) k

/-- **C64, averaged forests.** What is returned is the average over the first `L` trees times `L` over the number of trees. -/
theorem C64_forest {raws : List TreeArr} {d : Nat} (h : ∀ t ∈ raws, WellFormed t d) {K L : Nat} (hL0 : 0 < L) (hL : L ≤ raws.length)
    (normalize : Bool) (x : Row) (k : Nat) {p : ℚ}
    (hp : ensemblePredict (skForest normalize K (raws.take L)) none none (fun _ => 0) (full x) k = some p) :
    ensemblePredict (skForest normalize K raws) none (some (L : Int)) (fun _ => 0) (full x) k = some (L / raws.length * p) := by
  have hwf : ∀ t ∈ skForest normalize K raws, WellFormed t d := by
    intro t ht
    obtain ⟨r, hr, rfl⟩ := List.mem_map.1 ht
    exact wf_sk _ _ _ (h r hr)
  rw [C64_boosting_partial hwf none (by simpa [skForest] using hL)]
  have hleaf : ∀ t ∈ raws.take L, EndsIn t (full x) (leafAt t x) := fun t ht => leafAt_endsIn (h t (List.mem_of_mem_take ht)) x
  have e : (skForest normalize K raws).take L = (raws.take L).map (skTree normalize (1 / (raws.length : ℚ)) K) := by
    unfold skForest; rw [List.map_take]
  rw [e, predict_map (fun a ha => wf_sk _ _ _ (h a (List.mem_of_mem_take ha))) _ _ _ (fun t => leafAt t x)
    fun a ha => endsIn_sk _ _ _ (hleaf a ha)]
  unfold skForest at hp
  rw [predict_map (fun a ha => wf_sk _ _ _ (h a (List.mem_of_mem_take ha))) _ _ _ (fun t => leafAt t x)
    fun a ha => endsIn_sk _ _ _ (hleaf a ha)] at hp
  have hp' := Option.some.inj hp
  have hl : (raws.take L).length = L := by simp [hL]
  have hLq : (L : ℚ) ≠ 0 := by exact_mod_cast hL0.ne'
  rw [← hp', hl]
  congr 1
  rw [zero_add, zero_add, ← List.sum_map_mul_left]
  congr 1
  apply List.map_congr_left
  intro t _
  simp only [skTree]
  field_simp

/-- **C64 is false for averaged forests.** Limited to one of two trees, the probabilities of the two classes sum to 1/2. -/
theorem C64_forest_false : ¬ C64_forest_claim := by
  intro h
  have := h [exStump 1 3 1 1, exStump 2 2 1 3] 1 (by
    intro t ht
    rcases List.mem_cons.1 ht with rfl | ht
    · exact exStump_wf ..
    · rw [List.mem_singleton.1 ht]; exact exStump_wf ..) 2 1 (by decide) (by decide) (fun _ => 1) 0
  revert this
  decide +kernel

/-- The claim of C64 for models with one tree per class and round: a limit of `L` rounds (`best_ntree_limit` of XGBoost counts rounds) gives the
prediction of the first `L` rounds. -/
def C64_rounds_claim : Prop :=
  ∀ (K : Nat) (rounds : List (List TreeArr)) (d : Nat), 1 < K → IsRounds K rounds → (∀ r ∈ rounds, ∀ t ∈ r, WellFormed t d) →
    ∀ (L : Nat), L ≤ rounds.length → ∀ (base : Nat → ℚ) (x : Row) (k : Nat), k < K →
      ((stackTrees K rounds.flatten).bind fun ts => ensemblePredict ts (some (L : Int)) none base (full x) k) =
        (stackTrees K (rounds.take L).flatten).bind fun ts => ensemblePredict ts none none base (full x) k

/-- **C64 is false for rounds.** The limit counts single trees: with two classes and a limit of one round the second class gets no tree. -/
theorem C64_rounds_false : ¬ C64_rounds_claim := by
  intro h
  have := h 2 [[exStump 1 0 2 0, exStump 3 0 4 0], [exStump 5 0 6 0, exStump 7 0 8 0]] 1 (by decide) (by unfold IsRounds; simp) (by
    intro r hr t ht
    rcases List.mem_cons.1 hr with rfl | hr
    · rcases List.mem_cons.1 ht with rfl | ht
      · exact exStump_wf ..
      · rw [List.mem_singleton.1 ht]; exact exStump_wf ..
    · rw [List.mem_singleton.1 hr] at ht
      rcases List.mem_cons.1 ht with rfl | ht
      · exact exStump_wf ..
      · rw [List.mem_singleton.1 ht]; exact exStump_wf ..) 1 (by decide) (fun _ => 0) (fun _ => 1) 1 (by decide)
  revert this
  decide +kernel

/-- The claim that Shapley values explain what `predict` returns when the model has a default limit. -/
def C64_shap_claim : Prop :=
  ∀ (ts : List TreeArr) (m : Nat), (∀ t ∈ ts, WellFormed t m) → ∀ (data : List Row), data ≠ [] → ∀ (dl : Option Int) (x : Row) (P : Row → ℚ),
    (∀ z, ensemblePredict ts dl none (fun _ => 0) (full z) 0 = some (P z)) →
    (∀ t ∈ ts, ∀ ℓ, EndsIn t (full x) ℓ → ∃ z ∈ data, EndsIn t (full z) ℓ) →
    ∑ j ∈ Finset.range m, shapCy ts m data [[]] x j 0 = P x - (data.map P).sum / data.length

/-- **C64 is false for Shapley values.** They use all trees although `predict` stops at the limit of the model. -/
theorem C64_shap_false : ¬ C64_shap_claim := by
  intro h
  have hwf : ∀ t ∈ [exStump 1 0 2 0, exStump 3 0 7 0], WellFormed t 1 := by
    intro t ht
    rcases List.mem_cons.1 ht with rfl | ht
    · exact exStump_wf ..
    · rw [List.mem_singleton.1 ht]; exact exStump_wf ..
  have hP : ∀ z, ∃ p, ensemblePredict [exStump 1 0 2 0, exStump 3 0 7 0] (some 1) none (fun _ => 0) (full z) 0 = some p := by
    intro z
    have := (C03_predict_is_sum_of_leaf_values hwf (some 1) none (fun _ => 0) (full z) 0).2 (fun t => leafAt t z)
      (fun t ht => leafAt_endsIn (hwf t ht) z)
    exact ⟨_, this⟩
  choose P hP using hP
  have := h [exStump 1 0 2 0, exStump 3 0 7 0] 1 hwf [fun _ => 0, fun _ => 1] (by simp) (some 1) (fun _ => 1) P hP (by
    intro t _ ℓ hℓ
    exact ⟨fun _ => 1, by simp, hℓ⟩)
  have h1 : P (fun _ => 1) = 2 := Option.some.inj ((hP _).symm.trans (by decide +kernel))
  have h0 : P (fun _ => 0) = 1 := Option.some.inj ((hP _).symm.trans (by decide +kernel))
  rw [Finset.sum_range_one, List.map_cons, List.map_cons, List.map_nil, h0, h1] at this
  revert this
  decide +kernel

/-! ## C65: binary boosted classifiers -/

theorem sigmoid_pos (v : ℝ) : 0 < sigmoid v := by unfold sigmoid; positivity

theorem sigmoid_lt_one (v : ℝ) : sigmoid v < 1 := by
  unfold sigmoid
  rw [div_lt_one (by positivity)]
  have := Real.exp_pos (-v)
  linarith

/-- **C65, probabilities.** The two class scores are in (0, 1) and sum to 1. -/
theorem C65_scores {vs : List ℝ} (h : vs ≠ []) :
    binaryScore vs 0 + binaryScore vs 1 = 1 ∧ ∀ k, 0 < binaryScore vs k ∧ binaryScore vs k < 1 := by
  have hn : (0 : ℝ) < vs.length := by exact_mod_cast List.length_pos_of_ne_nil h
  have hsum : binaryScore vs 0 + binaryScore vs 1 = 1 := by
    unfold binaryScore
    rw [← List.sum_map_add]
    have : (vs.map fun v => valuesBinary vs.length v 0 + valuesBinary vs.length v 1) = vs.map fun _ => 1 / (vs.length : ℝ) := by
      apply List.map_congr_left
      intro v _
      unfold valuesBinary
      simp only [↓reduceIte, one_ne_zero]
      ring
    rw [this, List.map_const', List.sum_replicate, nsmul_eq_mul]
    field_simp
  have hpos : ∀ k, 0 < binaryScore vs k := by
    intro k
    unfold binaryScore
    apply List.sum_pos
    · intro a ha
      obtain ⟨v, -, rfl⟩ := List.mem_map.1 ha
      unfold valuesBinary
      apply div_pos _ hn
      split
      · have := sigmoid_lt_one v; linarith
      · exact sigmoid_pos v
    · simpa using h
  have heq : ∀ k, binaryScore vs k = if k = 0 then binaryScore vs 0 else binaryScore vs 1 := by
    intro k
    split
    · rename_i h0; rw [h0]
    · rename_i h0; unfold binaryScore valuesBinary; simp [h0]
  refine ⟨hsum, fun k => ⟨hpos k, ?_⟩⟩
  rw [heq]
  have h0 := hpos 0
  have h1 := hpos 1
  split <;> linarith

/-- The claim of C65: the scores are the class probabilities of the model, i.e. the sigmoid of the offset plus the sum of the leaf values. -/
def C65_claim : Prop := ∀ (vs : List ℝ) (offset : ℝ), vs ≠ [] → binaryScore vs 1 = sigmoid (offset + vs.sum)

/-- **C65 (partial).** The claim holds for one tree without offset. -/
theorem C65_partial (v : ℝ) : binaryScore [v] 1 = sigmoid (0 + [v].sum) := by
  unfold binaryScore valuesBinary
  simp

/-- **C65 is false.** The scores can even prefer the class the model does not predict: with leaf values 5, -2, -2 the model gives class 1 a
probability above 1/2, the scores give class 0 the larger value. -/
theorem C65_false : (1 / 2 < sigmoid (0 + [5, -2, -2].sum) ∧ binaryScore [5, -2, -2] 1 < binaryScore [5, -2, -2] 0) ∧ ¬ C65_claim := by
  have hs : 1 / 2 < sigmoid (0 + [5, -2, -2].sum) := by
    have e : (0 + [(5 : ℝ), -2, -2].sum) = 1 := by norm_num
    rw [e]
    unfold sigmoid
    rw [div_lt_div_iff₀ (by norm_num) (by positivity)]
    have : Real.exp (-1) < 1 := by rw [Real.exp_lt_one_iff]; norm_num
    linarith
  have h5 := sigmoid_lt_one 5
  have h2 : sigmoid (-2) < 1 / 4 := by
    unfold sigmoid
    rw [div_lt_div_iff₀ (by positivity) (by norm_num)]
    have : (2 : ℝ) + 1 < Real.exp 2 := Real.add_one_lt_exp (by norm_num)
    rw [neg_neg]
    linarith
  have h1 : binaryScore [5, -2, -2] 1 < 1 / 2 := by
    unfold binaryScore valuesBinary
    simp only [List.map_cons, List.map_nil, List.sum_cons, List.sum_nil, List.length_cons, List.length_nil, one_ne_zero, ↓reduceIte]
    push_cast
    linarith
  have hsum := (C65_scores (vs := [5, -2, -2]) (by simp)).1
  refine ⟨⟨hs, by linarith⟩, fun h => ?_⟩
  have := h [5, -2, -2] 0 (by simp)
  linarith

end Acv
