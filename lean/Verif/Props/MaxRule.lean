import Verif.Lemmas.MaxRule
import Verif.Props.Projected

/-!
# C36, C51: maximal rules
-/

namespace Acv

/-! ## C36 -/

/-- **C36.** Whatever the random draws and the acceptance decisions, for every rule, rules of the background rows, probabilities
`sdp` and level `pi`: the rule returned by the annealing contains the original rule; it is the original rule or contains (even
on its boundary) no background row whose probability is below `pi`; its reported value is its volume; and it has the largest
volume among all the candidates evaluated. -/
theorem C36_max_rule (m N : Nat) (data : Nat → Row) (rule : Rule) (ruleData : Nat → Rule) (sdp : Nat → ℚ) (pi : ℚ)
    (nTry batch maxIter maxConv : Nat) (first : Nat → Draw) (draws : Nat → Nat → Nat → Draw) (accept : Nat → Bool) {s : Anneal}
    (h : ruleByAnnealing m N data rule ruleData sdp pi nTry batch maxIter maxConv first draws accept = some s) :
    RuleLe m rule s.best ∧
    ((∀ j < m, s.best j = rule j) ∨ ∀ i < N, sdp i < pi → ¬ InClosed m s.best (data i)) ∧
    s.bestEval = volume m N data s.best ∧ s.best ∈ s.seen ∧ ∀ c ∈ s.seen, volume m N data c ≤ s.bestEval := by
  unfold ruleByAnnealing annealing at h
  obtain ⟨b, hb, hbnd, hok⟩ := validLoop_ok (N := N) (data := data) (bad := fun i => !decide (pi ≤ sdp i)) (rule := rule)
    (bnd_self (m := m) (rule := rule) (N := N) (rd := ruleData) (sdp := sdp) (pi := pi)) (Or.inl fun _ _ => rfl) first (nTry + 1) 0
  unfold validRule at h
  rw [hb] at h
  simp only at h
  by_cases h1 : m = 1 ∧ maxIter ≠ 0
  · rw [if_pos h1] at h
    cases h
  · rw [if_neg h1] at h
    obtain ⟨hs, -⟩ := annealLoop_ok
      (Good := fun c => Bnd m (possibleLeft rule N ruleData sdp pi) (possibleRight rule N ruleData sdp pi) c ∧
        OkRule m N data (fun i => !decide (pi ≤ sdp i)) rule c) (fun i c r hc hr => by
        obtain ⟨r', hr', -, hall⟩ := genRules_ok hc.1 hc.2 nTry batch (draws i)
        rw [hr'] at hr
        cases hr
        exact hall) accept maxConv maxIter 0 _ s
      (⟨⟨hbnd, hok⟩, ⟨hbnd, hok⟩, rfl, by simp, by simp⟩) h
    refine ⟨bnd_ruleLe hs.best.1, ?_, hs.eval, hs.mem, hs.top⟩
    rcases hs.best.2 with h2 | h2
    · exact Or.inl h2
    · right
      intro i hi hlt
      exact checkRule_iff.1 h2 i hi (by simp [not_le.2 hlt])

/-- **C36.** With at least two columns and a non-empty batch the annealing always returns a rule. -/
theorem C36_returns {m : Nat} (hm : m ≠ 1) (N : Nat) (data : Nat → Row) (rule : Rule) (ruleData : Nat → Rule) (sdp : Nat → ℚ)
    (pi : ℚ) (nTry : Nat) {batch : Nat} (hb : 0 < batch) (maxIter maxConv : Nat) (first : Nat → Draw)
    (draws : Nat → Nat → Nat → Draw) (accept : Nat → Bool) :
    ∃ s, ruleByAnnealing m N data rule ruleData sdp pi nTry batch maxIter maxConv first draws accept = some s := by
  unfold ruleByAnnealing annealing
  obtain ⟨b, hb', hbnd, hok⟩ := validLoop_ok (N := N) (data := data) (bad := fun i => !decide (pi ≤ sdp i)) (rule := rule)
    (bnd_self (m := m) (rule := rule) (N := N) (rd := ruleData) (sdp := sdp) (pi := pi)) (Or.inl fun _ _ => rfl) first (nTry + 1) 0
  unfold validRule
  rw [hb']
  simp only
  rw [if_neg (fun h => hm h.1)]
  refine annealLoop_some
      (Good := fun c => Bnd m (possibleLeft rule N ruleData sdp pi) (possibleRight rule N ruleData sdp pi) c ∧
        OkRule m N data (fun i => !decide (pi ≤ sdp i)) rule c) (fun i c hc => ?_) accept maxConv maxIter 0 _ ⟨hbnd, hok⟩
  obtain ⟨r', hr', hl, hall⟩ := genRules_ok hc.1 hc.2 nTry batch (draws i)
  exact ⟨r', hr', List.ne_nil_of_length_pos (by omega), hall⟩

/-- **C36.** With a single column `compute_sdp_maxrules` raises whatever the draws (`np.squeeze` drops the column axis). -/
theorem C36_one_column_raises (N : Nat) (data : Nat → Row) (rule : Rule) (ruleData : Nat → Rule) (sdp : Nat → ℚ) (pi : ℚ)
    (nTry batch : Nat) {maxIter : Nat} (hi : 0 < maxIter) (maxConv : Nat) (first : Nat → Draw)
    (draws : Nat → Nat → Nat → Draw) (accept : Nat → Bool) :
    ruleByAnnealing 1 N data rule ruleData sdp pi nTry batch maxIter maxConv first draws accept = none := by
  unfold ruleByAnnealing annealing
  cases validRule 1 N data (fun i => !decide (pi ≤ sdp i)) (possibleLeft rule N ruleData sdp pi)
    (possibleRight rule N ruleData sdp pi) nTry rule first with
  | none => rfl
  | some b => exact if_pos ⟨rfl, by omega⟩

/-- **C36.** If the bounds of the rules are infinite or within the range of the data, the volume of the returned rule is at least
that of the original rule. -/
theorem C36_volume_grows {m N : Nat} (hN : 0 < N) {data : Nat → Row} {rule : Rule} {ruleData : Nat → Rule} {sdp : Nat → ℚ} {pi : ℚ}
    {nTry batch maxIter maxConv : Nat} {first : Nat → Draw} {draws : Nat → Nat → Nat → Draw} {accept : Nat → Bool} {s : Anneal}
    (h : ruleByAnnealing m N data rule ruleData sdp pi nTry batch maxIter maxConv first draws accept = some s)
    (hd : ∀ i < N, ∀ j < m, -10000000000 < data i j ∧ data i j < 10000000000) (hr : BoundsInRange m N data rule)
    (hrd : ∀ i < N, BoundsInRange m N data (ruleData i)) :
    0 ≤ volume m N data rule ∧ volume m N data rule ≤ s.bestEval := by
  have hv : ∀ c, Bnd m (possibleLeft rule N ruleData sdp pi) (possibleRight rule N ruleData sdp pi) c →
      volume m N data rule ≤ volume m N data c := by
    intro c hc
    refine foldl_mul_mono _ _ _ zero_le_one le_rfl fun j hj => ?_
    have hj := List.mem_range.1 hj
    have hle := bnd_ruleLe hc
    refine width_mono hj hN (fun i hi => hd i hi j hj) hr ?_ hle
    intro k hk
    obtain ⟨h1, h2⟩ := hc k hk
    rw [mem_possibleLeft] at h1
    rw [mem_possibleRight] at h2
    refine ⟨le_trans (hle k hk).1 (le_trans (hr k hk).1 (hle k hk).2), ?_, ?_⟩
    · rcases h1 with h1 | ⟨i, hi, _, h1, _⟩
      · rw [h1]; exact (hr k hk).2.1
      · rw [← h1]; exact (hrd i hi k hk).2.1
    · rcases h2 with h2 | ⟨i, hi, _, h2, _⟩
      · rw [h2]; exact (hr k hk).2.2
      · rw [← h2]; exact (hrd i hi k hk).2.2
  constructor
  · have := foldl_mul_mono (f := fun _ => 0) (g := fun i =>
      convBound (colMin data N i) (colMax data N i) (rule i).2 - convBound (colMin data N i) (colMax data N i) (rule i).1)
      (List.range m) 0 1 le_rfl zero_le_one fun j hj => by
        have hj := List.mem_range.1 hj
        exact ⟨le_rfl, (width_mono hj hN (fun i hi => hd i hi j hj) hr hr (fun _ _ => ⟨le_rfl, le_rfl⟩)).1⟩
    refine le_trans (le_of_eq ?_) this
    have : ∀ l : List Nat, l.foldl (fun (v : ℚ) (_ : Nat) => v * 0) 0 = 0 := by
      intro l
      induction l with
      | nil => rfl
      | cons a l ih => simpa using ih
    exact (this _).symm
  · unfold ruleByAnnealing annealing at h
    obtain ⟨b, hb, hbnd, hok⟩ := validLoop_ok (N := N) (data := data) (bad := fun i => !decide (pi ≤ sdp i)) (rule := rule)
      (bnd_self (m := m) (rule := rule) (N := N) (rd := ruleData) (sdp := sdp) (pi := pi)) (Or.inl fun _ _ => rfl) first (nTry + 1) 0
    unfold validRule at h
    rw [hb] at h
    simp only at h
    by_cases h1 : m = 1 ∧ maxIter ≠ 0
    · rw [if_pos h1] at h
      cases h
    · rw [if_neg h1] at h
      obtain ⟨hs, hp⟩ := annealLoop_ok
        (Good := fun c => Bnd m (possibleLeft rule N ruleData sdp pi) (possibleRight rule N ruleData sdp pi) c ∧
          OkRule m N data (fun i => !decide (pi ≤ sdp i)) rule c) (fun i c r hc hr => by
          obtain ⟨r', hr', -, hall⟩ := genRules_ok hc.1 hc.2 nTry batch (draws i)
          rw [hr'] at hr
          cases hr
          exact hall) accept maxConv maxIter 0 _ s
        (⟨⟨hbnd, hok⟩, ⟨hbnd, hok⟩, rfl, by simp, by simp⟩) h
      exact le_trans (hv b hbnd) (hs.top b (hp.subset (by simp)))

/-- Four background rows on a line, the second column constant. -/
def lineData : Nat → Row := fun i j => if j = 0 then ([0, 2, 3, 9] : List ℚ).getD i 0 else 1

/-- Unit intervals around the rows. -/
def lineRules : Nat → Rule := fun i j =>
  if j = 0 then (([-10000000000, 1, 2, 3] : List ℚ).getD i 0, ([1, 2, 3, 10000000000] : List ℚ).getD i 0) else Rule.init j

/-- The draws of a run in which every second attempt explores. -/
def lineDraw : Nat → Draw := fun a => ⟨a % 2 = 0, fun _ => a, fun _ => a⟩

/-- A run that returns a rule different from the original and leaves the bad row (value 9) outside. -/
example : ∃ s, ruleByAnnealing 2 4 lineData (lineRules 1) lineRules (fun i => if i = 3 then 0 else 1) (9/10) 3 2 2 5 lineDraw
      (fun i b a => lineDraw (i + b + a)) (fun _ => true) = some s ∧ s.best 0 = (-10000000000, 3) ∧ s.seen.length = 5 := by
  obtain ⟨s, hs⟩ := C36_returns (m := 2) (by decide) 4 lineData (lineRules 1) lineRules (fun i => if i = 3 then 0 else 1) (9/10) 3 (batch := 2)
    (by decide) 2 5 lineDraw (fun i b a => lineDraw (i + b + a)) (fun _ => true)
  refine ⟨s, hs, ?_⟩
  have h : (ruleByAnnealing 2 4 lineData (lineRules 1) lineRules (fun i => if i = 3 then 0 else 1) (9/10) 3 2 2 5 lineDraw
      (fun i b a => lineDraw (i + b + a)) (fun _ => true)).map (fun s => (s.best 0, s.seen.length)) = some ((-10000000000, 3), 5) := by
    decide +kernel
  rw [hs] at h
  simpa using h

example : (∀ i < 4, ∀ j < 2, -10000000000 < lineData i j ∧ lineData i j < 10000000000) ∧
    ∀ i < 4, BoundsInRange 2 4 lineData (lineRules i) := by
  refine ⟨by decide +kernel, ?_⟩
  unfold BoundsInRange Between
  decide +kernel

/-! ## C51 -/

/-- **C36.** The maximal rule of `x` contains `x` (values within `±1e10`). -/
theorem C36_contains_instance {m : Nat} {mems : List Mem} {S : List Nat} {x : Row} {yx : ℚ} {data : Nat → Row} {y : Nat → ℚ}
    {minSize maxDepth N : Nat} {classifier : Bool} {t : ℚ × ℚ} {pi : ℚ} {nTry batch maxIter maxConv : Nat}
    {first : Nat → Draw} {draws : Nat → Nat → Nat → Draw} {accept : Nat → Bool} {s : Anneal}
    (h : sdpMaxRule m mems S x yx data y minSize maxDepth N classifier t pi nTry batch maxIter maxConv first draws accept = some s)
    (hx : ∀ j < m, -10000000000 < x j ∧ x j ≤ 10000000000) : InRule m s.best x := by
  have hc := (C36_max_rule _ _ _ _ _ _ _ _ _ _ _ _ _ _ h).1
  have hr := C25_rule_contains_instance_partial mems S m yx data y minSize maxDepth N classifier t hx
  intro j hj
  exact ⟨lt_of_le_of_lt (hc j hj).1 (hr j hj).1, le_trans (hr j hj).2 (hc j hj).2⟩

/-- The documented property of the maximal rule: if the explanation `S` of `x` is sufficient at level `pi`, so it is for every
observation in the returned rule. -/
def C51_claim : Prop :=
  ∀ (ts : List TreeArr) (mems : List Mem) (S : List Nat) (m : Nat), List.Forall₂ (fun mem t => mem.Holds t ∧ mem.Benign S ∧
      NegLeafFeature t ∧ LeafChildren t) mems ts →
    ∀ (x : Row) (yx : ℚ) (data : Nat → Row) (y : Nat → ℚ) (minSize maxDepth N : Nat) (classifier : Bool) (t : ℚ × ℚ) (pi : ℚ)
      (nTry batch maxIter maxConv : Nat) (first : Nat → Draw) (draws : Nat → Nat → Nat → Draw) (accept : Nat → Bool) (s : Anneal),
    (∀ c ∈ S, c < m) → pi ≤ sdpRf mems S x yx data y minSize maxDepth N classifier t →
    sdpMaxRule m mems S x yx data y minSize maxDepth N classifier t pi nTry batch maxIter maxConv first draws accept = some s →
    ∀ z, InRule m s.best z → pi ≤ sdpRf mems S z yx data y minSize maxDepth N classifier t

/-- **C51, partial**: for every forest in memory, draws and acceptance decisions, the property holds of every *background* row in
the returned rule. Missing (false): other observations. -/
theorem C51_background_partial {m : Nat} {mems : List Mem} {S : List Nat} (hS : ∀ c ∈ S, c < m) {x : Row} {yx : ℚ}
    {data : Nat → Row} {y : Nat → ℚ} {minSize maxDepth N : Nat} {classifier : Bool} {t : ℚ × ℚ} {pi : ℚ}
    (hpi : pi ≤ sdpRf mems S x yx data y minSize maxDepth N classifier t) {nTry batch maxIter maxConv : Nat}
    {first : Nat → Draw} {draws : Nat → Nat → Nat → Draw} {accept : Nat → Bool} {s : Anneal}
    (h : sdpMaxRule m mems S x yx data y minSize maxDepth N classifier t pi nTry batch maxIter maxConv first draws accept = some s)
    {i : Nat} (hi : i < N) (hz : InRule m s.best (data i)) :
    pi ≤ sdpRf mems S (data i) yx data y minSize maxDepth N classifier t := by
  obtain ⟨-, hor, -⟩ := C36_max_rule _ _ _ _ _ _ _ _ _ _ _ _ _ _ h
  rcases hor with hor | hor
  · have : InRule m (sdpRule mems S x yx data y minSize maxDepth N classifier t).2 (data i) := by
      intro j hj
      rw [← hor j hj]
      exact hz j hj
    rw [(C26_same_sdp_in_rule mems hS yx data y minSize maxDepth N classifier t this).2.1]
    exact hpi
  · have hlt : pi ≤ sdpAll mems S x yx data y minSize maxDepth N classifier t i := by
      by_contra hc
      exact hor i hi (not_le.1 hc) fun j hj => ⟨le_of_lt (hz j hj).1, (hz j hj).2⟩
    unfold sdpAll at hlt
    split at hlt
    · rw [C26_rule_sdp_is_sdp] at hlt
      exact hlt
    · exact le_trans hlt (C21_sdp_ddp_are_probabilities mems S (data i) yx data y minSize maxDepth N classifier t).1.1

/-- Splits on column 0 at 1 and at 3/2. -/
def gapTree : TreeArr where
  size := 5
  left := fun n => ([1, -1, 3, -1, -1] : List Int).getD n (-1)
  right := fun n => ([2, -1, 4, -1, -1] : List Int).getD n (-1)
  dflt := fun n => ([1, -1, 3, -1, -1] : List Int).getD n (-1)
  feature := fun n => ([0, -2, 0, -2, -2] : List Int).getD n (-2)
  threshold := fun n => ([1, -2, 3/2, -2, -2] : List ℚ).getD n (-2)
  value := fun _ _ => 0
  weight := fun _ => 1

/-- Splits on column 0 at 2. -/
def twoTree : TreeArr where
  size := 3
  left := fun n => ([1, -1, -1] : List Int).getD n (-1)
  right := fun n => ([2, -1, -1] : List Int).getD n (-1)
  dflt := fun n => ([1, -1, -1] : List Int).getD n (-1)
  feature := fun n => ([0, -2, -2] : List Int).getD n (-2)
  threshold := fun n => ([2, -2, -2] : List ℚ).getD n (-2)
  value := fun _ _ => 0
  weight := fun _ => 1

/-- Two rows of the same class, at 0 and at 9/5. -/
def gapData : Nat → Row := fun i j => if i = 0 then 0 else if j = 0 then 9/5 else 0

def gapRun : Option Anneal :=
  sdpMaxRule 2 [Mem.ofTree gapTree leafJunk, Mem.ofTree twoTree leafJunk] [0] (gapData 0) 1 gapData (fun _ => 1) 1 2 2 true (0, 0) (9/10)
    1 1 1 1 (fun _ => ⟨true, fun _ => 0, fun _ => 0⟩) (fun _ _ _ => ⟨true, fun _ => 0, fun _ => 0⟩) (fun _ => true)

/-- **C51 is false**: between two sufficient background rows the returned rule contains observations for which a tree has no
row; here the observation 6/5 has probability 1/2 although the level is 9/10. -/
theorem C51_gap_false : ¬ C51_claim := by
  intro h
  have hr : gapRun.map (fun s => (s.best 0, s.best 1)) = some ((-10000000000, 2), (-10000000000, 10000000000)) := by
    decide +kernel
  have hex : ∃ s, gapRun = some s := by
    cases hg : gapRun with
    | none => rw [hg] at hr; cases hr
    | some s => exact ⟨s, rfl⟩
  obtain ⟨s, hs⟩ := hex
  rw [hs] at hr
  simp only [Option.map_some, Option.some.injEq, Prod.mk.injEq] at hr
  have ht : ∀ t : TreeArr, t = gapTree ∨ t = twoTree → (Mem.ofTree t leafJunk).Holds t ∧ (Mem.ofTree t leafJunk).Benign [0] ∧
      NegLeafFeature t ∧ LeafChildren t := by
    rintro t (rfl | rfl)
    all_goals
      refine ⟨ofTree_holds _ _, ?_, by unfold NegLeafFeature; decide +kernel, by unfold LeafChildren; decide +kernel⟩
      intro n hn
      have : ¬ (0 ≤ n) := by omega
      simp [Mem.ofTree, this, leafJunk, inS]
  have := h [gapTree, twoTree] _ [0] 2 (.cons (ht _ (Or.inl rfl)) (.cons (ht _ (Or.inr rfl)) .nil)) (gapData 0) 1 gapData (fun _ => 1)
    1 2 2 true (0, 0) (9/10) 1 1 1 1 _ _ _ s (by decide) (by decide +kernel) hs (fun j => if j = 0 then 6/5 else 0) (by
      intro j hj
      have : j = 0 ∨ j = 1 := by omega
      rcases this with rfl | rfl
      · rw [hr.1]; norm_num
      · rw [hr.2]; norm_num)
  revert this
  decide +kernel

/-- The hypotheses of `C51_background_partial` on this run: both rows are in the returned rule. -/
example : ∃ s, gapRun = some s ∧ InRule 2 s.best (gapData 0) ∧ InRule 2 s.best (gapData 1) ∧
    (9/10 : ℚ) ≤ sdpRf [Mem.ofTree gapTree leafJunk, Mem.ofTree twoTree leafJunk] [0] (gapData 0) 1 gapData (fun _ => 1) 1 2 2 true (0, 0) := by
  have hr : gapRun.map (fun s => (s.best 0, s.best 1)) = some ((-10000000000, 2), (-10000000000, 10000000000)) := by
    decide +kernel
  cases hg : gapRun with
  | none => rw [hg] at hr; cases hr
  | some s =>
    rw [hg] at hr
    simp only [Option.map_some, Option.some.injEq, Prod.mk.injEq] at hr
    refine ⟨s, rfl, ?_, ?_, by decide +kernel⟩
    all_goals
      intro j hj
      have : j = 0 ∨ j = 1 := by omega
      rcases this with rfl | rfl
      · rw [hr.1]; norm_num [gapData]
      · rw [hr.2]; norm_num [gapData]

end Acv
