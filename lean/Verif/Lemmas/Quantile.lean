import Verif.Model.Quantile
import Mathlib.Tactic.Linarith
import Mathlib.Tactic.FieldSimp
import Mathlib.Tactic.Ring
import Mathlib.Algebra.Order.Field.Basic
import Mathlib.Algebra.Order.Ring.Rat
import Mathlib.Algebra.BigOperators.Group.List.Basic
import Mathlib.Algebra.Order.BigOperators.Group.List

namespace Acv

/-- The piecewise linear function through the points, constant outside. -/
def piecewise : List (ℚ × ℚ) → ℚ → ℚ
  | [], _ => 0
  | [p], _ => p.2
  | p :: p' :: l, q =>
    if q ≤ p.1 then p.2 else if q ≤ p'.1 then p.2 + (q - p.1) / (p'.1 - p.1) * (p'.2 - p.2) else piecewise (p' :: l) q

/-- Strictly increasing abscissas. -/
def Incr (pts : List (ℚ × ℚ)) : Prop := pts.Pairwise fun a b => a.1 < b.1

theorem incr_count_zero {p : ℚ × ℚ} {l : List (ℚ × ℚ)} {q : ℚ} (h : Incr (p :: l)) (hq : q ≤ p.1) :
    ((p :: l).filter fun p => decide (p.1 < q)) = [] := by
  rw [List.filter_eq_nil_iff]
  intro a ha
  rw [decide_eq_true_eq, not_lt]
  rcases List.mem_cons.1 ha with rfl | ha
  · exact hq
  · exact le_trans hq (le_of_lt ((List.pairwise_cons.1 h).1 a ha))

theorem interpolate_eq : ∀ {pts : List (ℚ × ℚ)} (q : ℚ), pts ≠ [] → Incr pts → interpolate pts q = piecewise pts q := by
  intro pts
  induction pts with
  | nil => exact fun q h => absurd rfl h
  | cons p l ih =>
    intro q _ hi
    cases l with
    | nil =>
      unfold interpolate piecewise
      simp only [List.length_cons, List.length_nil]
      split
      · rfl
      · next h =>
        have : ([p].filter fun p => decide (p.1 < q)).length = 0 := by
          have := List.length_filter_le (fun p : ℚ × ℚ => decide (p.1 < q)) [p]
          simp only [List.length_cons, List.length_nil] at this
          omega
        rw [if_pos this]
        rfl
    | cons p' l =>
      have hi' : Incr (p' :: l) := (List.pairwise_cons.1 hi).2
      have hpp : p.1 < p'.1 := (List.pairwise_cons.1 hi).1 p' (by simp)
      unfold piecewise
      by_cases h1 : q ≤ p.1
      · rw [if_pos h1]
        unfold interpolate
        rw [incr_count_zero hi h1]
        simp
      · rw [if_neg h1]
        have h1' := not_le.1 h1
        by_cases h2 : q ≤ p'.1
        · rw [if_pos h2]
          have hc : ((p :: p' :: l).filter fun p => decide (p.1 < q)) = [p] := by
            rw [List.filter_cons, if_pos (by simpa using h1'), incr_count_zero hi' h2]
          unfold interpolate
          rw [hc]
          simp
        · rw [if_neg h2, ← ih q (by simp) hi']
          have h2' := not_le.1 h2
          have hc : ((p :: p' :: l).filter fun p => decide (p.1 < q)).length =
              ((p' :: l).filter fun p => decide (p.1 < q)).length + 1 := by
            rw [List.filter_cons, if_pos (by simpa using h1'), List.length_cons]
          have hpos : 0 < ((p' :: l).filter fun p => decide (p.1 < q)).length := by
            rw [List.filter_cons, if_pos (by simpa using h2'), List.length_cons]
            omega
          unfold interpolate
          rw [hc]
          generalize ((p' :: l).filter fun p => decide (p.1 < q)).length = k at hpos
          obtain ⟨k, rfl⟩ : ∃ k', k = k' + 1 := ⟨k - 1, by omega⟩
          simp only [List.length_cons, Nat.add_right_cancel_iff, Nat.add_one_sub_one, Nat.add_eq_zero_iff, one_ne_zero, and_false,
            if_false, List.getD_cons_succ]

theorem piecewise_bounds : ∀ {pts : List (ℚ × ℚ)} (q : ℚ), pts ≠ [] → Incr pts → pts.Pairwise (fun a b => a.2 ≤ b.2) →
    (∀ p ∈ pts.head?, p.2 ≤ piecewise pts q) ∧ (∃ p ∈ pts, piecewise pts q ≤ p.2) ∧
    (∀ p' ∈ pts, q ≤ p'.1 → piecewise pts q ≤ p'.2) := by
  intro pts
  induction pts with
  | nil => exact fun q h => absurd rfl h
  | cons p l ih =>
    intro q _ hi ha
    cases l with
    | nil => exact ⟨by simp [piecewise], ⟨p, by simp, le_rfl⟩, by simp [piecewise]⟩
    | cons p' l =>
      have hi' : Incr (p' :: l) := (List.pairwise_cons.1 hi).2
      have ha' := (List.pairwise_cons.1 ha).2
      have hpp : p.1 < p'.1 := (List.pairwise_cons.1 hi).1 p' (by simp)
      have hap : p.2 ≤ p'.2 := (List.pairwise_cons.1 ha).1 p' (by simp)
      obtain ⟨g1, g2, g3⟩ := ih q (by simp) hi' ha'
      have hle : ∀ r ∈ p' :: l, p'.2 ≤ r.2 := by
        intro r hr
        rcases List.mem_cons.1 hr with rfl | hr
        · exact le_rfl
        · exact (List.pairwise_cons.1 ha').1 r hr
      unfold piecewise
      by_cases h1 : q ≤ p.1
      · rw [if_pos h1]
        refine ⟨by simp, ⟨p, by simp, le_rfl⟩, ?_⟩
        intro r hr _
        rcases List.mem_cons.1 hr with rfl | hr
        · exact le_rfl
        · exact le_trans hap (hle r hr)
      · rw [if_neg h1]
        have h1' := not_le.1 h1
        by_cases h2 : q ≤ p'.1
        · rw [if_pos h2]
          have hfr : 0 ≤ (q - p.1) / (p'.1 - p.1) ∧ (q - p.1) / (p'.1 - p.1) ≤ 1 := by
            constructor
            · exact div_nonneg (by linarith) (by linarith)
            · rw [div_le_one (by linarith)]
              linarith
          have hd : 0 ≤ p'.2 - p.2 := by linarith
          have hm : p.2 + (q - p.1) / (p'.1 - p.1) * (p'.2 - p.2) ≤ p'.2 := by nlinarith [mul_le_mul_of_nonneg_right hfr.2 hd]
          refine ⟨?_, ⟨p', by simp, hm⟩, ?_⟩
          · simp only [List.head?_cons, Option.mem_def, Option.some.injEq, forall_eq']
            nlinarith [mul_nonneg hfr.1 hd]
          · intro r hr hqr
            rcases List.mem_cons.1 hr with rfl | hr
            · exact absurd hqr h1
            · exact le_trans hm (hle r hr)
        · rw [if_neg h2]
          refine ⟨?_, ?_, ?_⟩
          · simp only [List.head?_cons, Option.mem_def, Option.some.injEq, forall_eq']
            exact le_trans hap (g1 p' (by simp))
          · obtain ⟨r, hr, h⟩ := g2
            exact ⟨r, by simp [List.mem_cons.1 hr], h⟩
          · intro r hr hqr
            rcases List.mem_cons.1 hr with rfl | hr
            · exact absurd hqr h1
            · exact g3 r hr hqr

theorem piecewise_mono : ∀ {pts : List (ℚ × ℚ)} {q q' : ℚ}, q ≤ q' → Incr pts → pts.Pairwise (fun a b => a.2 ≤ b.2) →
    piecewise pts q ≤ piecewise pts q' := by
  intro pts
  induction pts with
  | nil => intros; exact le_rfl
  | cons p l ih =>
    intro q q' hq hi ha
    cases l with
    | nil => exact le_rfl
    | cons p' l =>
      have hi' : Incr (p' :: l) := (List.pairwise_cons.1 hi).2
      have ha' := (List.pairwise_cons.1 ha).2
      have hpp : p.1 < p'.1 := (List.pairwise_cons.1 hi).1 p' (by simp)
      have hap : p.2 ≤ p'.2 := (List.pairwise_cons.1 ha).1 p' (by simp)
      have hd : 0 ≤ p'.2 - p.2 := by linarith
      by_cases h1 : q ≤ p.1
      · have e : piecewise (p :: p' :: l) q = p.2 := by
          rw [piecewise, if_pos h1]
        rw [e]
        exact (piecewise_bounds q' (by simp) hi ha).1 p (by simp)
      · have h1' := not_le.1 h1
        by_cases h2 : q' ≤ p'.1
        · have e : ∀ r, p.1 < r → r ≤ p'.1 → piecewise (p :: p' :: l) r = p.2 + (r - p.1) / (p'.1 - p.1) * (p'.2 - p.2) := by
            intro r hr hr'
            rw [piecewise, if_neg (not_le.2 hr), if_pos hr']
          rw [e q h1' (le_trans hq h2), e q' (lt_of_lt_of_le h1' hq) h2]
          have : (q - p.1) / (p'.1 - p.1) ≤ (q' - p.1) / (p'.1 - p.1) := by
            apply div_le_div_of_nonneg_right _ (by linarith)
            linarith
          nlinarith [mul_le_mul_of_nonneg_right this hd]
        · have h2' := not_le.1 h2
          have e' : piecewise (p :: p' :: l) q' = piecewise (p' :: l) q' := by
            rw [piecewise, if_neg (by linarith), if_neg h2]
          rw [e']
          by_cases h3 : q ≤ p'.1
          · exact le_trans ((piecewise_bounds q (by simp) hi ha).2.2 p' (by simp) h3)
              ((piecewise_bounds q' (by simp) hi' ha').1 p' (by simp))
          · have e : piecewise (p :: p' :: l) q = piecewise (p' :: l) q := by
              rw [piecewise, if_neg h1, if_neg h3]
            rw [e]
            exact ih hq hi' ha'

theorem piecewise_at : ∀ {pts : List (ℚ × ℚ)}, Incr pts → ∀ p ∈ pts, piecewise pts p.1 = p.2 := by
  intro pts
  induction pts with
  | nil => simp
  | cons p l ih =>
    intro hi r hr
    cases l with
    | nil => rw [List.mem_singleton.1 hr]; rfl
    | cons p' l =>
      have hi' : Incr (p' :: l) := (List.pairwise_cons.1 hi).2
      have hpp : p.1 < p'.1 := (List.pairwise_cons.1 hi).1 p' (by simp)
      unfold piecewise
      rcases List.mem_cons.1 hr with rfl | hr
      · rw [if_pos le_rfl]
      · have h1 : p.1 < r.1 := (List.pairwise_cons.1 hi).1 r hr
        rw [if_neg (not_le.2 h1)]
        rcases List.mem_cons.1 hr with rfl | hr'
        · rw [if_pos le_rfl, div_self (by linarith)]
          ring
        · rw [if_neg (not_le.2 ((List.pairwise_cons.1 hi').1 r hr'))]
          exact ih hi' r hr

/-- Between two consecutive points the value is interpolated linearly. -/
theorem piecewise_between : ∀ {pts : List (ℚ × ℚ)}, Incr pts → ∀ s ∈ pts, ∀ e ∈ pts, s.1 < e.1 →
    (∀ r ∈ pts, ¬ (s.1 < r.1 ∧ r.1 < e.1)) → ∀ q, s.1 ≤ q → q ≤ e.1 →
    piecewise pts q = s.2 + (q - s.1) / (e.1 - s.1) * (e.2 - s.2) := by
  intro pts
  induction pts with
  | nil => simp
  | cons p l ih =>
    intro hi s hs e he hse hno q hq1 hq2
    rcases eq_or_lt_of_le hq1 with heq | hlt
    · subst heq
      rw [piecewise_at hi s hs]
      simp
    cases l with
    | nil =>
      rw [List.mem_singleton.1 hs, List.mem_singleton.1 he] at hse
      exact absurd hse (lt_irrefl _)
    | cons p' l =>
      have hi' : Incr (p' :: l) := (List.pairwise_cons.1 hi).2
      have hpp : p.1 < p'.1 := (List.pairwise_cons.1 hi).1 p' (by simp)
      have hge : ∀ r ∈ p' :: l, p'.1 ≤ r.1 := by
        intro r hr
        rcases List.mem_cons.1 hr with rfl | hr
        · exact le_rfl
        · exact le_of_lt ((List.pairwise_cons.1 hi').1 r hr)
      have he' : e ∈ p' :: l := by
        rcases List.mem_cons.1 he with rfl | he
        · exfalso
          rcases List.mem_cons.1 hs with rfl | hs
          · exact lt_irrefl _ hse
          · exact absurd ((List.pairwise_cons.1 hi).1 s hs) (not_lt.2 (le_of_lt hse))
        · exact he
      rcases List.mem_cons.1 hs with rfl | hs
      · have : e = p' := by
          rcases List.mem_cons.1 he' with h | h
          · exact h
          · exact absurd ⟨hpp, (List.pairwise_cons.1 hi').1 e h⟩ (hno p' (by simp))
        subst this
        rw [piecewise, if_neg (not_le.2 hlt), if_pos hq2]
      · have h3 : p'.1 < q := lt_of_le_of_lt (hge s hs) hlt
        rw [piecewise, if_neg (not_le.2 (lt_trans hpp h3)), if_neg (not_le.2 h3)]
        exact ih hi' s hs e he' hse (fun r hr => hno r (by simp [List.mem_cons.1 hr])) q hq1 hq2

/-! ## Partial sums -/

theorem midpoints_snd : ∀ (l : List (ℚ × ℚ)) (acc : ℚ), (midpoints acc l).map Prod.snd = l.map Prod.fst := by
  intro l
  induction l with
  | nil => intro; rfl
  | cons s l ih => intro acc; simp [midpoints, ih]

theorem midpoints_gt : ∀ (l : List (ℚ × ℚ)) (acc : ℚ), (∀ s ∈ l, 0 < s.2) → ∀ p ∈ midpoints acc l, acc < p.1 := by
  intro l
  induction l with
  | nil => intro _ _ p hp; simp [midpoints] at hp
  | cons s l ih =>
    intro acc h p hp
    have hs := h s (by simp)
    rcases List.mem_cons.1 hp with rfl | hp
    · simp only; linarith
    · have := ih (acc + s.2) (fun s hs => h s (by simp [hs])) p hp
      linarith

theorem midpoints_incr : ∀ (l : List (ℚ × ℚ)) (acc : ℚ), (∀ s ∈ l, 0 < s.2) → Incr (midpoints acc l) := by
  intro l
  induction l with
  | nil => intro _ _; exact List.Pairwise.nil
  | cons s l ih =>
    intro acc h
    have hs := h s (by simp)
    refine List.pairwise_cons.2 ⟨fun p hp => ?_, ih _ fun s hs => h s (by simp [hs])⟩
    have := midpoints_gt l (acc + s.2) (fun s hs => h s (by simp [hs])) p hp
    simp only
    linarith

theorem total_pos {l : List (ℚ × ℚ)} (hne : l ≠ []) (h : ∀ s ∈ l, 0 < s.2) : 0 < (l.map Prod.snd).sum := by
  apply List.sum_pos
  · intro x hx
    obtain ⟨s, hs, rfl⟩ := List.mem_map.1 hx
    exact h s hs
  · simpa using hne

theorem partialSums_incr {l : List (ℚ × ℚ)} (h : ∀ s ∈ l, 0 < s.2) : Incr (partialSums l) := by
  by_cases hne : l = []
  · subst hne; exact List.Pairwise.nil
  unfold partialSums Incr
  rw [List.pairwise_map]
  have ht := total_pos hne h
  refine (midpoints_incr l 0 h).imp fun hab => ?_
  exact mul_lt_mul_of_pos_left hab (div_pos (by norm_num) ht)

theorem partialSums_snd (l : List (ℚ × ℚ)) : (partialSums l).map Prod.snd = l.map Prod.fst := by
  unfold partialSums
  rw [List.map_map, ← midpoints_snd l 0]
  rfl

theorem partialSums_sorted {l : List (ℚ × ℚ)} (h : l.Pairwise fun a b => a.1 ≤ b.1) :
    (partialSums l).Pairwise fun a b => a.2 ≤ b.2 := by
  have := List.pairwise_map.2 h
  rw [← partialSums_snd, List.pairwise_map] at this
  exact this

theorem sortSamples_sorted (l : List (ℚ × ℚ)) : (sortSamples l).Pairwise fun a b => a.1 ≤ b.1 := by
  haveI : Std.Total (fun a b : ℚ × ℚ => a.1 ≤ b.1) := ⟨fun a b => le_total _ _⟩
  haveI : IsTrans (ℚ × ℚ) (fun a b => a.1 ≤ b.1) := ⟨fun _ _ _ => le_trans⟩
  exact List.pairwise_insertionSort _ l

theorem mem_sortSamples {l : List (ℚ × ℚ)} {s : ℚ × ℚ} : s ∈ sortSamples l ↔ s ∈ l :=
  (List.perm_insertionSort _ l).mem_iff

theorem sortSamples_perm (l : List (ℚ × ℚ)) : (sortSamples l).Perm l := List.perm_insertionSort _ l

end Acv
