import Verif.Spec.Rules
import Verif.Props.Nested
import Mathlib.Algebra.Order.Ring.Rat
import Mathlib.Tactic.NormNum
import Mathlib.Tactic.Linarith

/-!
# C39: answers of the global rule model
-/

namespace Acv

theorem inRuleS_iff {S : List Nat} {rule : Rule} {z : Row} : inRuleS S rule z = true ↔ MeetsOn S rule z := by
  unfold inRuleS MeetsOn
  simp only [List.all_eq_true, Bool.and_eq_true, decide_eq_true_eq]
  exact forall₂_congr fun _ _ => and_comm

theorem npMax_spec : ∀ (l : List (Option ℚ)), l ≠ [] → (∀ o ∈ l, o ≠ none) →
    ∃ v, npMax l = some v ∧ some v ∈ l ∧ ∀ b, some b ∈ l → b ≤ v := by
  have aux : ∀ (l : List (Option ℚ)) (a : ℚ), (∀ o ∈ l, o ≠ none) →
      ∃ v, (l.foldl (fun b c => match b, c with
        | some b, some c => some (max b c)
        | _, _ => none) (some a)) = some v ∧ (v = a ∨ some v ∈ l) ∧ a ≤ v ∧ ∀ b, some b ∈ l → b ≤ v := by
    intro l
    induction l with
    | nil => intro a _; exact ⟨a, rfl, Or.inl rfl, le_rfl, by simp⟩
    | cons o l ih =>
      intro a h
      obtain ⟨c, rfl⟩ := Option.ne_none_iff_exists'.1 (h o (by simp))
      obtain ⟨v, h1, h2, h3, h4⟩ := ih (max a c) (fun o ho => h o (by simp [ho]))
      refine ⟨v, h1, ?_, le_trans (le_max_left _ _) h3, ?_⟩
      · rcases h2 with h2 | h2
        · rcases max_choice a c with e | e
          · left; rw [h2, e]
          · right; rw [h2, e]; simp
        · right; simp [h2]
      · intro b hb
        rcases List.mem_cons.1 hb with hb | hb
        · rw [Option.some.inj hb]; exact le_trans (le_max_right _ _) h3
        · exact h4 b hb
  intro l hne h
  cases l with
  | nil => exact absurd rfl hne
  | cons o l =>
    obtain ⟨a, rfl⟩ := Option.ne_none_iff_exists'.1 (h o (by simp))
    obtain ⟨v, h1, h2, h3, h4⟩ := aux l a (fun o ho => h o (by simp [ho]))
    refine ⟨v, h1, ?_, ?_⟩
    · rcases h2 with h2 | h2
      · simp [h2]
      · simp [h2]
    · intro b hb
      rcases List.mem_cons.1 hb with hb | hb
      · rw [Option.some.inj hb]; exact h3
      · exact h4 b hb

theorem npMin_spec : ∀ (l : List (Option ℚ)), l ≠ [] → (∀ o ∈ l, o ≠ none) →
    ∃ v, npMin l = some v ∧ some v ∈ l ∧ ∀ b, some b ∈ l → v ≤ b := by
  have aux : ∀ (l : List (Option ℚ)) (a : ℚ), (∀ o ∈ l, o ≠ none) →
      ∃ v, (l.foldl (fun b c => match b, c with
        | some b, some c => some (min b c)
        | _, _ => none) (some a)) = some v ∧ (v = a ∨ some v ∈ l) ∧ v ≤ a ∧ ∀ b, some b ∈ l → v ≤ b := by
    intro l
    induction l with
    | nil => intro a _; exact ⟨a, rfl, Or.inl rfl, le_rfl, by simp⟩
    | cons o l ih =>
      intro a h
      obtain ⟨c, rfl⟩ := Option.ne_none_iff_exists'.1 (h o (by simp))
      obtain ⟨v, h1, h2, h3, h4⟩ := ih (min a c) (fun o ho => h o (by simp [ho]))
      refine ⟨v, h1, ?_, le_trans h3 (min_le_left _ _), ?_⟩
      · rcases h2 with h2 | h2
        · rcases min_choice a c with e | e
          · left; rw [h2, e]
          · right; rw [h2, e]; simp
        · right; simp [h2]
      · intro b hb
        rcases List.mem_cons.1 hb with hb | hb
        · rw [Option.some.inj hb]; exact le_trans h3 (min_le_right _ _)
        · exact h4 b hb
  intro l hne h
  cases l with
  | nil => exact absurd rfl hne
  | cons o l =>
    obtain ⟨a, rfl⟩ := Option.ne_none_iff_exists'.1 (h o (by simp))
    obtain ⟨v, h1, h2, h3, h4⟩ := aux l a (fun o ho => h o (by simp [ho]))
    refine ⟨v, h1, ?_, ?_⟩
    · rcases h2 with h2 | h2
      · simp [h2]
      · simp [h2]
    · intro b hb
      rcases List.mem_cons.1 hb with hb | hb
      · rw [Option.some.inj hb]; exact h3
      · exact h4 b hb

theorem argEq_spec {l : List (Option ℚ)} {v : ℚ} (h : some v ∈ l) :
    argEq l (some v) < l.length ∧ l[argEq l (some v)]? = some (some v) ∧ ∀ q < argEq l (some v), l[q]? ≠ some (some v) := by
  have hlt : l.idxOf (some v) < l.length := List.idxOf_lt_length_iff.2 h
  have e : argEq l (some v) = l.idxOf (some v) := by
    show (if l.idxOf (some v) < l.length then l.idxOf (some v) else 0) = _
    rw [if_pos hlt]
  rw [e]
  refine ⟨hlt, by rw [List.getElem?_eq_getElem hlt, List.getElem_idxOf], ?_⟩
  intro q hq hc
  rw [List.getElem?_eq_getElem (lt_trans hq hlt)] at hc
  have := List.not_of_lt_findIdx (p := fun o => o == some v) (xs := l) hq
  rw [Option.some.inj hc] at this
  simp at this

/-- **C39, partial, `global_rules_model`.** When the covering rules have an accuracy (no NaN): the rule that answers contains `x`, its
accuracy is the largest one among the covering rules of sufficient coverage and at least `minAcc`, and it is the first covering rule
with that accuracy; there is no answer exactly when no rule covers `x`, or all the covering rules of sufficient coverage are less
accurate than `minAcc`; and an error is raised exactly when `x` is covered but by no rule of sufficient coverage. Missing (false): the
coverage of the answer, the absence of error, NaN accuracies. -/
theorem C39_classifier_partial {n : Nat} {rules : Nat → Rule} {cov : Nat → ℚ} {acc : Nat → Option ℚ} {minCov : ℚ} {S : Nat → List Nat} {minAcc : ℚ}
    {x : Row} (hfin : ∀ i < n, MeetsOn (S i) (rules i) x → acc i ≠ none) :
    (∀ i, globalRules n rules cov acc minCov S minAcc x = .ok (some i) →
      i < n ∧ MeetsOn (S i) (rules i) x ∧ ∃ a, acc i = some a ∧ minAcc ≤ a ∧
        (∀ j < n, MeetsOn (S j) (rules j) x → minCov ≤ cov j → ∀ b, acc j = some b → b ≤ a) ∧
        (∃ j < n, MeetsOn (S j) (rules j) x ∧ minCov ≤ cov j ∧ acc j = some a) ∧
        ∀ j < i, MeetsOn (S j) (rules j) x → acc j ≠ some a) ∧
    (globalRules n rules cov acc minCov S minAcc x = .ok none ↔
      (∀ i < n, ¬ MeetsOn (S i) (rules i) x) ∨
        ((∃ i < n, MeetsOn (S i) (rules i) x ∧ minCov ≤ cov i) ∧
          ∀ i < n, MeetsOn (S i) (rules i) x → minCov ≤ cov i → ∀ a, acc i = some a → a < minAcc)) ∧
    ((∃ e, globalRules n rules cov acc minCov S minAcc x = .error e) ↔
      (∃ i < n, MeetsOn (S i) (rules i) x) ∧ ∀ i < n, MeetsOn (S i) (rules i) x → cov i < minCov) := by
  have hhit : ∀ i, i ∈ (List.range n).filter (fun i => inRuleS (S i) (rules i) x) ↔ i < n ∧ MeetsOn (S i) (rules i) x := by
    intro i
    rw [List.mem_filter, List.mem_range, inRuleS_iff]
  have hsorted : ((List.range n).filter (fun i => inRuleS (S i) (rules i) x)).Pairwise (· < ·) :=
    List.Pairwise.filter _ List.pairwise_lt_range
  unfold globalRules
  generalize (List.range n).filter (fun i => inRuleS (S i) (rules i) x) = hit at hhit hsorted ⊢
  by_cases h0 : hit = []
  · have hno : ∀ i < n, ¬ MeetsOn (S i) (rules i) x := by
      intro i hi hm
      have := (hhit i).2 ⟨hi, hm⟩
      rw [h0] at this
      cases this
    rw [if_pos h0]
    refine ⟨fun i h => by simp at h, ⟨fun _ => Or.inl hno, fun _ => rfl⟩, ⟨fun ⟨e, h⟩ => by simp at h, fun ⟨⟨i, hi, hm⟩, _⟩ => absurd hm (hno i hi)⟩⟩
  · obtain ⟨i0, hi0⟩ := List.exists_mem_of_ne_nil _ h0
    have hi0' := (hhit i0).1 hi0
    simp only [if_neg h0]
    have hel : ∀ i, i ∈ hit.filter (fun i => decide (minCov ≤ cov i)) ↔ i < n ∧ MeetsOn (S i) (rules i) x ∧ minCov ≤ cov i := by
      intro i
      rw [List.mem_filter, hhit, decide_eq_true_eq, and_assoc]
    generalize hit.filter (fun i => decide (minCov ≤ cov i)) = el at hel ⊢
    by_cases h1 : el.map acc = []
    · have hno : ∀ i < n, MeetsOn (S i) (rules i) x → cov i < minCov := by
        intro i hi hm
        by_contra hlt
        have := (hel i).2 ⟨hi, hm, not_lt.1 hlt⟩
        rw [List.map_eq_nil_iff.1 h1] at this
        cases this
      rw [if_pos h1]
      refine ⟨fun i h => by simp at h, ⟨fun h => by simp at h, ?_⟩, ⟨fun _ => ⟨⟨i0, hi0'⟩, hno⟩, fun _ => ⟨_, rfl⟩⟩⟩
      rintro (h | ⟨⟨i, hi, hm, hc⟩, _⟩)
      · exact absurd hi0'.2 (h i0 hi0'.1)
      · exact absurd (hno i hi hm) (not_lt.2 hc)
    · rw [if_neg h1]
      have hsome : ∀ o ∈ el.map acc, o ≠ none := by
        intro o ho
        obtain ⟨i, hi, rfl⟩ := List.mem_map.1 ho
        have := (hel i).1 hi
        exact hfin i this.1 this.2.1
      obtain ⟨v, hv, hmem, hmax⟩ := npMax_spec (el.map acc) h1 hsome
      obtain ⟨k, hk, hkv⟩ := List.mem_map.1 hmem
      have hk' := (hel k).1 hk
      rw [hv]
      have hnoerr : ¬ ((∃ i < n, MeetsOn (S i) (rules i) x) ∧ ∀ i < n, MeetsOn (S i) (rules i) x → cov i < minCov) :=
        fun h => absurd (h.2 k hk'.1 hk'.2.1) (not_lt.2 hk'.2.2)
      by_cases hok : minAcc ≤ v
      · simp only [hok, decide_true, if_true]
        have hin : some v ∈ hit.map acc := List.mem_map.2 ⟨k, (hhit k).2 ⟨hk'.1, hk'.2.1⟩, hkv⟩
        obtain ⟨ha, hav, hafirst⟩ := argEq_spec hin
        rw [List.length_map] at ha
        refine ⟨?_, ⟨fun h => by simp at h, ?_⟩, ⟨fun ⟨e, h⟩ => by simp at h, fun h => absurd h hnoerr⟩⟩
        · intro i hi
          simp only [Except.ok.injEq, Option.some.injEq] at hi
          rw [List.getD_eq_getElem?_getD, List.getElem?_eq_getElem ha, Option.getD_some] at hi
          have hih := (hhit i).1 (hi ▸ List.getElem_mem ha)
          refine ⟨hih.1, hih.2, v, ?_, hok, ?_, ⟨k, hk'.1, hk'.2.1, hk'.2.2, hkv⟩, ?_⟩
          · rw [← hi]
            rw [List.getElem?_map, List.getElem?_eq_getElem ha] at hav
            exact Option.some.inj hav
          · intro j hj hm hc b hb
            exact hmax b (List.mem_map.2 ⟨j, (hel j).2 ⟨hj, hm, hc⟩, hb⟩)
          · intro j hji hm hj
            have hjh := (hhit j).2 ⟨lt_trans hji hih.1, hm⟩
            obtain ⟨q, hq, hqj⟩ := List.getElem_of_mem hjh
            have hlt : q < argEq (hit.map acc) (some v) := by
              by_contra hge
              rcases Nat.lt_or_ge (argEq (hit.map acc) (some v)) q with h | h
              · have := List.pairwise_iff_getElem.1 hsorted _ _ ha hq h
                omega
              · obtain rfl : q = argEq (hit.map acc) (some v) := by omega
                omega
            refine hafirst q hlt ?_
            rw [List.getElem?_map, List.getElem?_eq_getElem hq, hqj]
            simp [hj]
        · rintro (h | ⟨_, h⟩)
          · exact absurd hi0'.2 (h i0 hi0'.1)
          · exact absurd (h k hk'.1 hk'.2.1 hk'.2.2 v hkv) (not_lt.2 hok)
      · simp only [hok, decide_false, Bool.false_eq_true, if_false]
        refine ⟨fun i h => by simp at h, ⟨fun _ => Or.inr ⟨⟨k, hk'⟩, ?_⟩, fun _ => trivial⟩, ⟨fun ⟨e, h⟩ => by simp at h, fun h => absurd h hnoerr⟩⟩
        intro i hi hm hc a ha
        exact lt_of_le_of_lt (hmax a (List.mem_map.2 ⟨i, (hel i).2 ⟨hi, hm, hc⟩, ha⟩)) (not_le.1 hok)

/-- **C39, partial, `global_rules_model_reg`.** The same with the smallest mean squared error. -/
theorem C39_regression_partial {n : Nat} {rules : Nat → Rule} {cov : Nat → ℚ} {mse : Nat → Option ℚ} {minCov : ℚ} {S : Nat → List Nat} {maxMse : ℚ}
    {x : Row} (hfin : ∀ i < n, MeetsOn (S i) (rules i) x → mse i ≠ none) :
    (∀ i, globalRulesReg n rules cov mse minCov S maxMse x = .ok (some i) →
      i < n ∧ MeetsOn (S i) (rules i) x ∧ ∃ a, mse i = some a ∧ a ≤ maxMse ∧
        (∀ j < n, MeetsOn (S j) (rules j) x → minCov ≤ cov j → ∀ b, mse j = some b → a ≤ b) ∧
        (∃ j < n, MeetsOn (S j) (rules j) x ∧ minCov ≤ cov j ∧ mse j = some a) ∧
        ∀ j < i, MeetsOn (S j) (rules j) x → mse j ≠ some a) ∧
    (globalRulesReg n rules cov mse minCov S maxMse x = .ok none ↔
      (∀ i < n, ¬ MeetsOn (S i) (rules i) x) ∨
        ((∃ i < n, MeetsOn (S i) (rules i) x ∧ minCov ≤ cov i) ∧
          ∀ i < n, MeetsOn (S i) (rules i) x → minCov ≤ cov i → ∀ a, mse i = some a → maxMse < a)) ∧
    ((∃ e, globalRulesReg n rules cov mse minCov S maxMse x = .error e) ↔
      (∃ i < n, MeetsOn (S i) (rules i) x) ∧ ∀ i < n, MeetsOn (S i) (rules i) x → cov i < minCov) := by
  have hhit : ∀ i, i ∈ (List.range n).filter (fun i => inRuleS (S i) (rules i) x) ↔ i < n ∧ MeetsOn (S i) (rules i) x := by
    intro i
    rw [List.mem_filter, List.mem_range, inRuleS_iff]
  have hsorted : ((List.range n).filter (fun i => inRuleS (S i) (rules i) x)).Pairwise (· < ·) :=
    List.Pairwise.filter _ List.pairwise_lt_range
  unfold globalRulesReg
  generalize (List.range n).filter (fun i => inRuleS (S i) (rules i) x) = hit at hhit hsorted ⊢
  by_cases h0 : hit = []
  · have hno : ∀ i < n, ¬ MeetsOn (S i) (rules i) x := by
      intro i hi hm
      have := (hhit i).2 ⟨hi, hm⟩
      rw [h0] at this
      cases this
    rw [if_pos h0]
    refine ⟨fun i h => by simp at h, ⟨fun _ => Or.inl hno, fun _ => rfl⟩, ⟨fun ⟨e, h⟩ => by simp at h, fun ⟨⟨i, hi, hm⟩, _⟩ => absurd hm (hno i hi)⟩⟩
  · obtain ⟨i0, hi0⟩ := List.exists_mem_of_ne_nil _ h0
    have hi0' := (hhit i0).1 hi0
    simp only [if_neg h0]
    have hel : ∀ i, i ∈ hit.filter (fun i => decide (minCov ≤ cov i)) ↔ i < n ∧ MeetsOn (S i) (rules i) x ∧ minCov ≤ cov i := by
      intro i
      rw [List.mem_filter, hhit, decide_eq_true_eq, and_assoc]
    generalize hit.filter (fun i => decide (minCov ≤ cov i)) = el at hel ⊢
    by_cases h1 : el.map mse = []
    · have hno : ∀ i < n, MeetsOn (S i) (rules i) x → cov i < minCov := by
        intro i hi hm
        by_contra hlt
        have := (hel i).2 ⟨hi, hm, not_lt.1 hlt⟩
        rw [List.map_eq_nil_iff.1 h1] at this
        cases this
      rw [if_pos h1]
      refine ⟨fun i h => by simp at h, ⟨fun h => by simp at h, ?_⟩, ⟨fun _ => ⟨⟨i0, hi0'⟩, hno⟩, fun _ => ⟨_, rfl⟩⟩⟩
      rintro (h | ⟨⟨i, hi, hm, hc⟩, _⟩)
      · exact absurd hi0'.2 (h i0 hi0'.1)
      · exact absurd (hno i hi hm) (not_lt.2 hc)
    · rw [if_neg h1]
      have hsome : ∀ o ∈ el.map mse, o ≠ none := by
        intro o ho
        obtain ⟨i, hi, rfl⟩ := List.mem_map.1 ho
        have := (hel i).1 hi
        exact hfin i this.1 this.2.1
      obtain ⟨v, hv, hmem, hmax⟩ := npMin_spec (el.map mse) h1 hsome
      obtain ⟨k, hk, hkv⟩ := List.mem_map.1 hmem
      have hk' := (hel k).1 hk
      rw [hv]
      have hnoerr : ¬ ((∃ i < n, MeetsOn (S i) (rules i) x) ∧ ∀ i < n, MeetsOn (S i) (rules i) x → cov i < minCov) :=
        fun h => absurd (h.2 k hk'.1 hk'.2.1) (not_lt.2 hk'.2.2)
      by_cases hok : v ≤ maxMse
      · simp only [hok, decide_true, if_true]
        have hin : some v ∈ hit.map mse := List.mem_map.2 ⟨k, (hhit k).2 ⟨hk'.1, hk'.2.1⟩, hkv⟩
        obtain ⟨ha, hav, hafirst⟩ := argEq_spec hin
        rw [List.length_map] at ha
        refine ⟨?_, ⟨fun h => by simp at h, ?_⟩, ⟨fun ⟨e, h⟩ => by simp at h, fun h => absurd h hnoerr⟩⟩
        · intro i hi
          simp only [Except.ok.injEq, Option.some.injEq] at hi
          rw [List.getD_eq_getElem?_getD, List.getElem?_eq_getElem ha, Option.getD_some] at hi
          have hih := (hhit i).1 (hi ▸ List.getElem_mem ha)
          refine ⟨hih.1, hih.2, v, ?_, hok, ?_, ⟨k, hk'.1, hk'.2.1, hk'.2.2, hkv⟩, ?_⟩
          · rw [← hi]
            rw [List.getElem?_map, List.getElem?_eq_getElem ha] at hav
            exact Option.some.inj hav
          · intro j hj hm hc b hb
            exact hmax b (List.mem_map.2 ⟨j, (hel j).2 ⟨hj, hm, hc⟩, hb⟩)
          · intro j hji hm hj
            have hjh := (hhit j).2 ⟨lt_trans hji hih.1, hm⟩
            obtain ⟨q, hq, hqj⟩ := List.getElem_of_mem hjh
            have hlt : q < argEq (hit.map mse) (some v) := by
              by_contra hge
              rcases Nat.lt_or_ge (argEq (hit.map mse) (some v)) q with h | h
              · have := List.pairwise_iff_getElem.1 hsorted _ _ ha hq h
                omega
              · obtain rfl : q = argEq (hit.map mse) (some v) := by omega
                omega
            refine hafirst q hlt ?_
            rw [List.getElem?_map, List.getElem?_eq_getElem hq, hqj]
            simp [hj]
        · rintro (h | ⟨_, h⟩)
          · exact absurd hi0'.2 (h i0 hi0'.1)
          · exact absurd (h k hk'.1 hk'.2.1 hk'.2.2 v hkv) (not_lt.2 hok)
      · simp only [hok, decide_false, Bool.false_eq_true, if_false]
        refine ⟨fun i h => by simp at h, ⟨fun _ => Or.inr ⟨⟨k, hk'⟩, ?_⟩, fun _ => trivial⟩, ⟨fun ⟨e, h⟩ => by simp at h, fun h => absurd h hnoerr⟩⟩
        intro i hi hm hc a ha
        exact lt_of_lt_of_le (not_le.1 hok) (hmax a (List.mem_map.2 ⟨i, (hel i).2 ⟨hi, hm, hc⟩, ha⟩))

end Acv
