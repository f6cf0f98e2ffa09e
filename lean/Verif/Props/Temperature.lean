import Verif.Model.Temperature
import Verif.Props.MaxRule

/-!
# C109: the temperature of the searches
-/

namespace Acv

/-- The random numbers of `rand()` are in `[0, 1)`. -/
def UnitDraws (u : Nat → ℝ) : Prop := ∀ i, 0 ≤ u i ∧ u i < 1

/-- **C109, acceptance.** With a positive temperature every candidate is accepted, however much worse it is, in every iteration and for every random
number. -/
theorem C109_always {temp : ℝ} (ht : 0 < temp) {u : Nat → ℝ} (hu : UnitDraws u) (i : Nat) (diff : ℚ) : accepts temp u i diff = true := by
  unfold accepts
  rw [decide_eq_true_eq]
  rcases lt_or_ge 0 diff with h | h
  · exact Or.inl h
  · right
    refine lt_of_lt_of_le (hu i).2 ?_
    unfold metropolis
    split
    · exact le_refl _
    · next hi =>
      rw [Real.one_le_exp_iff]
      have hlog : 0 < Real.log (i + 1) := Real.log_pos (by
        have : (1 : ℝ) ≤ i := by exact_mod_cast Nat.one_le_iff_ne_zero.mpr hi
        linarith)
      have hd : (diff : ℝ) ≤ 0 := by exact_mod_cast h
      exact div_nonneg (by linarith) (div_pos ht hlog).le

/-- **C109, the usual rule needs the opposite sign.** With a negative temperature a worse candidate is accepted in iteration `i ≥ 1` exactly if the random
number is below `exp(-loss / t)` with `t = |temp| / log(i + 1)`. -/
theorem C109_negative {temp : ℝ} (u : Nat → ℝ) {i : Nat} (hi : 1 ≤ i) {diff : ℚ} (hd : diff ≤ 0) :
    accepts (-temp) u i diff = true ↔ u i < Real.exp (-(-(diff : ℝ)) / (temp / Real.log (i + 1))) := by
  unfold accepts metropolis
  rw [decide_eq_true_eq, if_neg (by omega)]
  have e : -(diff : ℝ) / (-temp / Real.log (i + 1)) = -(-(diff : ℝ)) / (temp / Real.log (i + 1)) := by rw [neg_div (Real.log _) temp, div_neg, ← neg_div]
  rw [e]
  exact ⟨fun h => h.resolve_left (not_lt.mpr hd), Or.inr⟩

/-- The loop of `rules_simulated_annealing` with a positive temperature is the loop that accepts every candidate. -/
theorem annealLoopT_eq {temp : ℝ} (ht : 0 < temp) {u : Nat → ℝ} (hu : UnitDraws u) (value : Rule → ℚ) (gen : Nat → Rule → Option (List Rule))
    (maxConv : Nat) : ∀ k i s, annealLoopT temp u value gen maxConv k i s = annealLoop value gen (fun _ => true) maxConv k i s
  | 0, _, _ => rfl
  | k + 1, i, s => by
    unfold annealLoopT annealLoop
    cases gen i s.curr with
    | none => rfl
    | some cands =>
      simp only
      cases bestCand value cands with
      | none => rfl
      | some cand => simp only [C109_always ht hu, annealLoopT_eq ht hu value gen maxConv k, or_true, if_true]

/-- Whatever the temperature, a run of the loop is a run of `annealLoop` for some acceptances. -/
theorem annealLoopT_some (temp : ℝ) (u : Nat → ℝ) (value : Rule → ℚ) (gen : Nat → Rule → Option (List Rule)) (maxConv : Nat) :
    ∀ k i s, ∃ acc : Nat → Bool, annealLoopT temp u value gen maxConv k i s = annealLoop value gen acc maxConv k i s
  | 0, _, _ => ⟨fun _ => true, rfl⟩
  | k + 1, i, s => by
    have hcongr : ∀ (k i : Nat) (s : Anneal) (a b : Nat → Bool), (∀ j, i ≤ j → a j = b j) →
        annealLoop value gen a maxConv k i s = annealLoop value gen b maxConv k i s := by
      intro k
      induction k with
      | zero => intros; rfl
      | succ k ih =>
        intro i s a b h
        unfold annealLoop
        cases gen i s.curr with
        | none => rfl
        | some cands =>
          simp only
          cases bestCand value cands with
          | none => rfl
          | some cand => simp only [h i le_rfl, ih (i + 1) _ a b fun j hj => h j (by omega)]
    unfold annealLoopT
    cases hg : gen i s.curr with
    | none => exact ⟨fun _ => true, by unfold annealLoop; rw [hg]⟩
    | some cands =>
      simp only
      cases hc : bestCand value cands with
      | none => exact ⟨fun _ => true, by unfold annealLoop; rw [hg]; simp only; rw [hc]⟩
      | some cand =>
        simp only
        generalize hs1 : (if s.bestEval < value cand then
            ({ best := cand, bestEval := value cand, curr := s.curr, currEval := s.currEval, move := 0, seen := s.seen ++ cands } : Anneal)
          else { best := s.best, bestEval := s.bestEval, curr := s.curr, currEval := s.currEval, move := s.move + 1, seen := s.seen ++ cands }) = s1
        obtain ⟨acc, ha⟩ := annealLoopT_some temp u value gen maxConv k (i + 1)
          (if accepts temp u i (value cand - s1.currEval) = true then { s1 with curr := cand, currEval := value cand } else s1)
        refine ⟨fun j => if j = i then accepts temp u i (value cand - s1.currEval) else acc j, ?_⟩
        unfold annealLoop
        rw [hg]
        simp only
        rw [hc]
        simp only
        rw [hs1]
        by_cases hm : maxConv < s1.move
        · rw [if_pos hm, if_pos hm]
        · rw [if_neg hm, if_neg hm, ha, hcongr k (i + 1) _ (fun j => if j = i then accepts temp u i (value cand - s1.currEval) else acc j) acc
            (fun j hj => if_neg (by omega))]
          congr 1
          by_cases hp : 0 < value cand - s1.currEval
          · have : accepts temp u i (value cand - s1.currEval) = true := by unfold accepts; rw [decide_eq_true_eq]; exact Or.inl hp
            simp [this]
          · simp [hp]

theorem sampleLoopT_eq {temp : ℝ} (ht : 0 < temp) {u : Nat → ℝ} (hu : UnitDraws u) (score : Row → ℚ) (gen : Nat → Row → Option (List Row))
    (maxConv : Nat) : ∀ k i s, sampleLoopT temp u score gen maxConv k i s = sampleLoop score gen (fun _ => true) maxConv k i s
  | 0, _, _ => rfl
  | k + 1, i, s => by
    unfold sampleLoopT sampleLoop
    cases gen i s.curr with
    | none => rfl
    | some cands =>
      simp only
      cases bestRow score cands with
      | none => rfl
      | some cand => simp only [C109_always ht hu, sampleLoopT_eq ht hu score gen maxConv k, or_true, if_true]

/-- **C109, the temperature has no effect.** Two searches for a maximal rule with the same random draws of rules but with any two positive temperatures and
any two sequences of acceptance numbers return the same rule; likewise two searches for a counterfactual sample. -/
theorem C109_no_effect {temp temp' : ℝ} (ht : 0 < temp) (ht' : 0 < temp') {u u' : Nat → ℝ} (hu : UnitDraws u) (hu' : UnitDraws u') :
    (∀ m N data bad left right nTry batch maxIter maxConv rule first draws,
      annealingT temp u m N data bad left right nTry batch maxIter maxConv rule first draws =
        annealingT temp' u' m N data bad left right nTry batch maxIter maxConv rule first draws) ∧
    (∀ N data score cond S x batch maxIter maxConv first draws,
      sampleCfT temp u N data score cond S x batch maxIter maxConv first draws =
        sampleCfT temp' u' N data score cond S x batch maxIter maxConv first draws) := by
  constructor
  · intros
    unfold annealingT
    split
    · rfl
    · simp only [annealLoopT_eq ht hu, annealLoopT_eq ht' hu']
  · intros
    unfold sampleCfT
    simp only [sampleLoopT_eq ht hu, sampleLoopT_eq ht' hu']

open Classical in
/-- **C109, where a search moves.** With a negative temperature, an iteration `i ≥ 1` that does not end the search and whose best candidate is not better
than the current point moves to it exactly if the random number is below `exp(-loss / t)`, where the loss is the current value minus that of the candidate.
First for samples, then for rules. -/
theorem C109_step {temp : ℝ} (u : Nat → ℝ) {i maxConv : Nat} (hi : 1 ≤ i) :
    (∀ (score : Row → ℚ) (gen : Nat → Row → Option (List Row)) (s : Sample) (cands : List Row) (cand : Row), gen i s.curr = some cands →
      bestRow score cands = some cand → score cand ≤ s.currEval → s.move + 1 ≤ maxConv →
      (sampleLoopT (-temp) u score gen maxConv 1 i s).map (·.curr) =
        some (if u i < Real.exp (-((s.currEval - score cand : ℚ) : ℝ) / (temp / Real.log (i + 1))) then cand else s.curr)) ∧
    (∀ (value : Rule → ℚ) (gen : Nat → Rule → Option (List Rule)) (s : Anneal) (cands : List Rule) (cand : Rule), gen i s.curr = some cands →
      bestCand value cands = some cand → value cand ≤ s.currEval → s.move + 1 ≤ maxConv →
      (annealLoopT (-temp) u value gen maxConv 1 i s).map (·.curr) =
        some (if u i < Real.exp (-((s.currEval - value cand : ℚ) : ℝ) / (temp / Real.log (i + 1))) then cand else s.curr)) := by
  have key : ∀ a b : ℚ, b ≤ a → (accepts (-temp) u i (b - a) = true ↔
      u i < Real.exp (-((a - b : ℚ) : ℝ) / (temp / Real.log (i + 1)))) := by
    intro a b h
    rw [C109_negative u hi (by linarith)]
    have : (-(-((b - a : ℚ) : ℝ))) = -((a - b : ℚ) : ℝ) := by push_cast; ring
    rw [this]
  constructor
  · intro score gen s cands cand hg hb hle hmv
    unfold sampleLoopT
    simp only [hg, hb]
    have hk := key s.currEval (score cand) hle
    by_cases hbest : s.bestEval < score cand
    · simp only [hbest, if_true, hk]
      rw [if_neg (by rintro ⟨-, h⟩; simp at h)]
      unfold sampleLoopT
      split <;> simp
    · simp only [hbest, if_false, hk]
      rw [if_neg (by rintro ⟨-, h⟩; omega)]
      unfold sampleLoopT
      split <;> simp
  · intro value gen s cands cand hg hb hle hmv
    unfold annealLoopT
    simp only [hg, hb]
    have hk := key s.currEval (value cand) hle
    by_cases hbest : s.bestEval < value cand
    · simp only [hbest, if_true, hk]
      rw [if_neg (by simp)]
      unfold annealLoopT
      split <;> simp
    · simp only [hbest, if_false, hk]
      rw [if_neg (by omega)]
      unfold annealLoopT
      split <;> simp

/-- A candidate that is worse by 2, in an iteration that does not end the search. -/
example : ∃ (score : Row → ℚ) (gen : Nat → Row → Option (List Row)) (s : Sample) (cand : Row), gen 1 s.curr = some [cand] ∧
    bestRow score [cand] = some cand ∧ score cand = s.currEval - 2 ∧ s.move + 1 ≤ 5 :=
  ⟨fun z => z 0, fun _ _ => some [fun _ => 1], ⟨fun _ => 3, 3, fun _ => 3, 3, 0, []⟩, fun _ => 1, rfl, by simp [bestRow], by norm_num, by norm_num⟩

/-- **C109, the results of C36 and C40 apply.** Whatever the temperature, a search with its acceptance numbers is a search of `MaxRule` for some
acceptances, for which C36 is proved. -/
theorem C109_maxrule {m N : Nat} {data : Nat → Row} {rule : Rule} {ruleData : Nat → Rule} {sdp : Nat → ℚ} {pi : ℚ}
    {nTry batch maxIter maxConv : Nat} {first : Nat → Draw} {draws : Nat → Nat → Nat → Draw} {temp : ℝ} {u : Nat → ℝ} {s : Anneal}
    (h : annealingT temp u m N data (fun i => !decide (pi ≤ sdp i)) (possibleLeft rule N ruleData sdp pi) (possibleRight rule N ruleData sdp pi)
      nTry batch maxIter maxConv rule first draws = some s) :
    RuleLe m rule s.best ∧ ((∀ j < m, s.best j = rule j) ∨ ∀ i < N, sdp i < pi → ¬ InClosed m s.best (data i)) ∧
    s.bestEval = volume m N data s.best ∧ s.best ∈ s.seen ∧ ∀ c ∈ s.seen, volume m N data c ≤ s.bestEval := by
  have : ∃ acc : Nat → Bool, ruleByAnnealing m N data rule ruleData sdp pi nTry batch maxIter maxConv first draws acc = some s := by
    rw [← h]
    unfold ruleByAnnealing annealing annealingT
    cases validRule m N data (fun i => !decide (pi ≤ sdp i)) (possibleLeft rule N ruleData sdp pi) (possibleRight rule N ruleData sdp pi) nTry rule
      first with
    | none => exact ⟨fun _ => true, rfl⟩
    | some b =>
      simp only
      by_cases hm : m = 1 ∧ maxIter ≠ 0
      · exact ⟨fun _ => true, by rw [if_pos hm, if_pos hm]⟩
      · obtain ⟨acc, ha⟩ := annealLoopT_some temp u (volume m N data) (fun i c => genRules m N data (fun i => !decide (pi ≤ sdp i))
          (possibleLeft rule N ruleData sdp pi) (possibleRight rule N ruleData sdp pi) nTry batch c (draws i)) maxConv maxIter 0
          ⟨b, volume m N data b, b, volume m N data b, 0, [b]⟩
        exact ⟨acc, by rw [if_neg hm, if_neg hm]; exact ha.symm⟩
  obtain ⟨acc, ha⟩ := this
  exact C36_max_rule m N data rule ruleData sdp pi nTry batch maxIter maxConv first draws acc ha

/-- The full claim of C109: a candidate that is not better is accepted in iteration `i` exactly if the random number is below `exp(-loss / t)` with the
temperature `t = temp / log(i + 1)`. -/
def C109_claim : Prop :=
  ∀ (temp : ℝ), 0 < temp → ∀ u : Nat → ℝ, UnitDraws u → ∀ i : Nat, 1 ≤ i → ∀ diff : ℚ, diff ≤ 0 →
    (accepts temp u i diff = true ↔ u i < Real.exp (-(-(diff : ℝ)) / (temp / Real.log (i + 1))))

/-- **C109 is false of the code.** With temperature 1, in iteration 1, a candidate worse by 1 should be accepted for random numbers below 1/2; it is accepted
for 3/4. -/
theorem C109_false : ¬ C109_claim := by
  intro h
  have hu : UnitDraws fun _ => (3 / 4 : ℝ) := fun _ => by norm_num
  have := (h 1 one_pos _ hu 1 le_rfl (-1) (by norm_num)).mp (C109_always one_pos hu 1 (-1))
  have e : Real.exp (-(-(((-1 : ℚ)) : ℝ)) / (1 / Real.log ((1 : Nat) + 1))) = 1 / 2 := by
    have : -(-(((-1 : ℚ)) : ℝ)) / (1 / Real.log ((1 : Nat) + 1)) = -Real.log 2 := by
      norm_num
    rw [this, Real.exp_neg, Real.exp_log (by norm_num)]
    norm_num
  rw [e] at this
  norm_num at this

example : UnitDraws (fun i => 1 / ((i : ℝ) + 2)) := by
  intro i
  have : (0 : ℝ) ≤ i := Nat.cast_nonneg i
  exact ⟨by positivity, by rw [div_lt_one (by linarith)]; linarith⟩

end Acv
