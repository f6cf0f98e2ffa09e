import Verif.Lemmas.Counterfactual

/-!
# C40: counterfactual samples
-/

namespace Acv

/-- **C40.** Whatever the random draws, the acceptance decisions, the outlier score and the training set, the row returned for a rule
`cond` and variables `S` equals `x` outside `S`; each variable of `S` gets a training value inside its interval, or the lower bound if
there is none. The score returned is that of the row and the largest of all the rows generated. -/
theorem C40_sample (N : Nat) (data : Nat → Row) (score : Row → ℚ) (cond : Rule) (S : List Nat) (x : Row) (batch maxIter maxConv : Nat)
    (first : Nat → Nat) (draws : Nat → Nat → Nat → Nat) (accept : Nat → Bool) {s : Sample}
    (h : sampleCf N data score cond S x batch maxIter maxConv first draws accept = some s) :
    SampleOf N data cond S x s.best ∧ s.bestEval = score s.best ∧ s.best ∈ s.seen ∧
    ∀ c ∈ s.seen, SampleOf N data cond S x c ∧ score c ≤ s.bestEval := by
  have h0 := genCand_sampleOf (N := N) (data := data) (cond := cond) (S := S) (x := x) (c := x) (fun _ _ => rfl) first
  have hs := sampleLoop_ok (score := score) (Good := SampleOf N data cond S x) (fun i c r hc hr g hg => by
    cases hr
    obtain ⟨k, _, rfl⟩ := List.mem_map.1 hg
    exact genCand_sampleOf hc.outside _) accept maxConv maxIter 0 _ s
    ⟨h0, by simpa using h0, rfl, by simp, by simp⟩ h
  exact ⟨hs.seen _ hs.mem, hs.eval, hs.mem, fun c hc => ⟨hs.seen c hc, hs.top c hc⟩⟩

/-- **C40.** If the intervals of `S` are not empty, the row returned meets the rule on `S`. -/
theorem C40_inside (N : Nat) (data : Nat → Row) (score : Row → ℚ) {cond : Rule} {S : List Nat} (hle : ∀ s ∈ S, (cond s).1 ≤ (cond s).2)
    (x : Row) (batch maxIter maxConv : Nat) (first : Nat → Nat) (draws : Nat → Nat → Nat → Nat) (accept : Nat → Bool) {s : Sample}
    (h : sampleCf N data score cond S x batch maxIter maxConv first draws accept = some s) :
    MeetsOn S cond s.best ∧ ∀ j, j ∉ S → s.best j = x j := by
  obtain ⟨hs, -⟩ := C40_sample _ _ _ _ _ _ _ _ _ _ _ _ h
  refine ⟨fun j hj => ?_, hs.outside⟩
  rcases hs.inside j hj with ⟨i, _, _, h1, h2⟩ | ⟨_, he⟩
  · exact ⟨h1, h2⟩
  · rw [he]
    exact ⟨le_rfl, hle j hj⟩

/-- **C40.** With a non-empty batch a row is always returned. -/
theorem C40_returns (N : Nat) (data : Nat → Row) (score : Row → ℚ) (cond : Rule) (S : List Nat) (x : Row) {batch : Nat} (hb : 0 < batch)
    (maxIter maxConv : Nat) (first : Nat → Nat) (draws : Nat → Nat → Nat → Nat) (accept : Nat → Bool) :
    ∃ s, sampleCf N data score cond S x batch maxIter maxConv first draws accept = some s :=
  sampleLoop_some (Good := fun _ => True) (fun i c _ => ⟨_, rfl, by simp; omega, fun _ _ => trivial⟩) accept maxConv maxIter 0 _ trivial

/-- Five rows: column 0 is 0, 1, 2, 3, 4, column 1 is 0, 2, 4, 6, 8. -/
def sampleRows : Nat → Row := fun i j => (i : ℚ) * ((j : ℚ) + 1)

example : (sampleCf 5 sampleRows (fun z => z 0 - 3) (fun _ => (1, 3)) [0] (fun _ => 9) 2 3 1 (fun _ => 0) (fun i b _ => i + b)
    (fun _ => true)).map (fun s => (s.best 0, s.best 1, s.bestEval, s.seen.length)) = some (3, 9, 0, 7) := by decide +kernel

example : ∀ s ∈ [0], ((fun _ => (1, 3) : Rule) s).1 ≤ ((fun _ => (1, 3) : Rule) s).2 := by simp

/-- **C40, the older sampler** (utils.py): the rows it returns are inside the intervals without any assumption, because it raises exactly
when some variable of `S` has no training value in its interval. -/
theorem C40_old_sampler (N : Nat) (data : Nat → Row) (score : Row → ℚ) (cond : Rule) (S : List Nat) (x : Row) {batch : Nat}
    (hb : 0 < batch) (maxIter maxConv : Nat) (first : Nat → Nat) (draws : Nat → Nat → Nat → Nat) (accept : Nat → Bool) :
    (sampleCfOld N data score cond S x batch maxIter maxConv first draws accept = none ↔
      ∃ s ∈ S, ∀ i < N, ¬ ((cond s).1 ≤ data i s ∧ data i s ≤ (cond s).2)) ∧
    ∀ s, sampleCfOld N data score cond S x batch maxIter maxConv first draws accept = some s →
      MeetsOn S cond s.best ∧ (∀ j, j ∉ S → s.best j = x j) ∧ s.bestEval = score s.best ∧ ∀ c ∈ s.seen, score c ≤ s.bestEval := by
  have hall : (S.all fun s => !(possible N data cond s).isEmpty) = true ↔ ∀ s ∈ S, possible N data cond s ≠ [] := by
    simp
  by_cases hp : ∀ s ∈ S, possible N data cond s ≠ []
  · have e : ∀ c d, genCandOld N data cond S c d = some (genCand N data cond S c d) := fun c d => if_pos (hall.2 hp)
    have e2 : ∀ (ks : List Nat) (c : Row) (f : Nat → Nat → Nat), ks.mapM (fun k => genCandOld N data cond S c (f k)) =
        some (ks.map fun k => genCand N data cond S c (f k)) := by
      intro ks c f
      simp only [e]
      induction ks with
      | nil => rfl
      | cons k ks ih => rw [List.mapM_cons, ih]; rfl
    have e3 : sampleCfOld N data score cond S x batch maxIter maxConv first draws accept =
        sampleCf N data score cond S x batch maxIter maxConv first draws accept := by
      unfold sampleCfOld sampleCf
      rw [e]
      simp only [e2]
    rw [e3]
    constructor
    · obtain ⟨s, hs⟩ := C40_returns N data score cond S x hb maxIter maxConv first draws accept
      rw [hs]
      constructor
      · intro h; cases h
      · rintro ⟨s, hs, hn⟩
        exact absurd (possible_nil.2 hn) (hp s hs)
    · intro s hs
      obtain ⟨h1, h2, -, h4⟩ := C40_sample _ _ _ _ _ _ _ _ _ _ _ _ hs
      refine ⟨fun j hj => ?_, h1.outside, h2, fun c hc => (h4 c hc).2⟩
      rcases h1.inside j hj with ⟨i, _, _, ha, hb⟩ | ⟨hn, _⟩
      · exact ⟨ha, hb⟩
      · exact absurd (possible_nil.2 hn) (hp j hj)
  · have e : sampleCfOld N data score cond S x batch maxIter maxConv first draws accept = none := by
      unfold sampleCfOld genCandOld
      rw [if_neg (fun hc => hp (hall.1 hc))]
    rw [e]
    push Not at hp
    obtain ⟨s, hs, hn⟩ := hp
    exact ⟨⟨fun _ => ⟨s, hs, possible_nil.1 hn⟩, fun _ => rfl⟩, fun s h => by cases h⟩

example : (sampleCfOld 5 sampleRows (fun z => z 0 - 3) (fun _ => (1/4, 3/4)) [0] (fun _ => 9) 2 3 1 (fun _ => 0) (fun i b _ => i + b)
    (fun _ => true)).isNone = true := by decide +kernel
example : ((sampleCfOld 5 sampleRows (fun z => z 0 - 3) (fun _ => (1, 3)) [0] (fun _ => 9) 2 3 1 (fun _ => 0) (fun i b _ => i + b)
    (fun _ => true)).map fun s => s.best 0) = some 3 := by decide +kernel

theorem sampleLoop_greedy {score : Row → ℚ} {gen : Nat → Row → Option (List Row)} (maxConv : Nat) :
    ∀ k i s s', s.curr = s.best → s.currEval = s.bestEval → sampleLoop score gen (fun _ => false) maxConv k i s = some s' →
      s'.curr = s'.best ∧ s'.currEval = s'.bestEval := by
  intro k
  induction k with
  | zero =>
    intro i s s' h1 h2 he
    cases he
    exact ⟨h1, h2⟩
  | succ k ih =>
    intro i s s' h1 h2 he
    unfold sampleLoop at he
    cases hg : gen i s.curr with
    | none => rw [hg] at he; cases he
    | some cands =>
      rw [hg] at he
      simp only at he
      cases hb : bestRow score cands with
      | none => rw [hb] at he; cases he
      | some cand =>
        rw [hb] at he
        simp only [Bool.false_eq_true, or_false] at he
        by_cases hlt : s.bestEval < score cand
        · have h3 : 0 < score cand - s.currEval := by rw [h2]; exact sub_pos.2 hlt
          simp only [if_pos hlt, if_pos h3, Nat.not_lt_zero, and_false, if_false] at he
          exact ih _ _ _ (by simp) (by simp) he
        · have h3 : ¬ 0 < score cand - s.currEval := by rw [h2]; exact fun h => hlt (sub_pos.1 h)
          simp only [if_neg hlt, if_neg h3] at he
          split at he
          · cases he
            exact ⟨h1, h2⟩
          · exact ih _ { s with seen := s.seen ++ cands, move := s.move + 1 } _ h1 h2 he

/-- **C40, acceptance.** A better candidate is always taken, and only the random acceptance takes a worse one: if it never does, the walk
ends at the row returned. -/
theorem C40_greedy (N : Nat) (data : Nat → Row) (score : Row → ℚ) (cond : Rule) (S : List Nat) (x : Row) (batch maxIter maxConv : Nat)
    (first : Nat → Nat) (draws : Nat → Nat → Nat → Nat) {s : Sample}
    (h : sampleCf N data score cond S x batch maxIter maxConv first draws (fun _ => false) = some s) :
    s.curr = s.best ∧ s.currEval = s.bestEval :=
  sampleLoop_greedy maxConv maxIter 0 _ s rfl rfl h

example : (sampleCf 5 sampleRows (fun z => z 0 - 3) (fun _ => (1, 3)) [0] (fun _ => 9) 2 3 1 (fun _ => 0) (fun i b _ => i + b)
    (fun _ => false)).map (fun s => (s.best 0, s.curr 0)) = some (3, 3) := by decide +kernel

end Acv
