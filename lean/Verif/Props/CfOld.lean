import Verif.Model.CfOld
import Verif.Props.Counterfactual
import Verif.Props.DdpRule
import Verif.Props.Nested
import Verif.Props.Extend

/-!
# C93: the first versions of the counterfactual rules
-/

namespace Acv

theorem argmaxQ_sorted {l : List ℚ} (hs : l.Pairwise (· < ·)) (hne : l ≠ []) : argmaxQ l = l.length - 1 := by
  obtain ⟨-, h2⟩ := argmaxQ_spec (f := fun v : ℚ => v) hne 0
  have hlt : argmaxQ l < l.length := by
    have := argmaxNan_lt (l := l.map some) (by simpa using hne)
    simpa [argmaxQ] using this
  rw [List.map_id'] at h2
  by_contra hk
  have hk' : argmaxQ l < l.length - 1 := by omega
  have hlast : l.length - 1 < l.length := by omega
  have h3 := List.pairwise_iff_getElem.1 hs _ _ hlt hlast hk'
  have h4 := h2 _ (List.getElem_mem hlast)
  rw [List.getD_eq_getElem?_getD, List.getElem?_eq_getElem hlt, Option.getD_some] at h4
  exact absurd h3 (not_lt.2 h4)

theorem sortedDistinct (l : List ℚ) : (l.dedup.insertionSort (· ≤ ·)).Pairwise (· < ·) := by
  have h1 : (l.dedup.insertionSort (· ≤ ·)).Pairwise (· ≤ ·) := List.pairwise_insertionSort _ _
  have h2 : (l.dedup.insertionSort (· ≤ ·)).Nodup := ((List.perm_insertionSort _ _).nodup_iff).2 (List.nodup_dedup _)
  exact (h1.and h2).imp fun h => lt_of_le_of_ne h.1 h.2

theorem mem_sortedDistinct {α : Type} [DecidableEq α] (r : α → α → Prop) [DecidableRel r] {l : List α} {a : α} :
    a ∈ l.dedup.insertionSort r ↔ a ∈ l := by
  rw [List.mem_insertionSort, List.mem_dedup]

theorem rowLe_iff : ∀ (a b : List ℚ), rowLe a b = true ↔ ¬ b < a
  | [], b => by simp [rowLe]
  | p :: a, [] => by simp [rowLe]
  | p :: a, q :: b => by
    have ih := rowLe_iff a b
    rw [rowLe, List.cons_lt_cons_iff]
    rcases lt_trichotomy p q with h | h | h
    · simp [h, not_lt.2 (le_of_lt h), ne_of_gt h]
    · subst h
      simp [ih]
    · simp [h, not_lt.2 (le_of_lt h)]

theorem sortedRows (l : List (List ℚ)) : (l.dedup.insertionSort fun u v => rowLe u v = true).Pairwise (· < ·) := by
  have e : (fun u v : List ℚ => rowLe u v = true) = fun u v => u ≤ v := by
    funext u v
    rw [rowLe_iff, not_lt]
  have : Std.Total (fun a b : List ℚ => rowLe a b = true) := by rw [e]; infer_instance
  have : IsTrans (List ℚ) (fun a b => rowLe a b = true) := by rw [e]; infer_instance
  have hs : (l.dedup.insertionSort fun u v => rowLe u v = true).Pairwise (fun a b => rowLe a b = true) := List.pairwise_insertionSort _ _
  have h2 : (l.dedup.insertionSort fun u v => rowLe u v = true).Nodup := ((List.perm_insertionSort _ _).nodup_iff).2 (List.nodup_dedup _)
  exact (hs.and h2).imp fun h => lt_of_le_of_ne (not_lt.1 ((rowLe_iff _ _).1 h.1)) h.2

/-- **C93, what is returned.** A condition is returned exactly if it is the condition of a compatible leaf (the leaf on `S*`, the values of
the observation on the other columns) and its probability reaches the level; the conditions are distinct and sorted; the probabilities
returned are the distinct probabilities of the conditions returned, in increasing order; the weights are those of the conditions, distinct, in lexicographic order. -/
theorem C93_returned (a : CfArgs) (yx : ℚ) (sStar sBar : List Nat) (x : Row) (pi : ℚ) (suf : List Box) :
    let c := returnCfOld a yx sStar sBar x pi suf
    (∀ b, b ∈ c.rules ↔ (∃ leaf ∈ suf, b = boxOf a.m (cfCond sStar sBar x leaf)) ∧ pi ≤ (cfProbOld a yx sBar x (ruleOf b)).1) ∧
    c.rules.Pairwise (fun b b' => flatBox b < flatBox b') ∧
    (∀ v, v ∈ c.probs ↔ ∃ b ∈ c.rules, (cfProbOld a yx sBar x (ruleOf b)).1 = v) ∧ c.probs.Pairwise (· < ·) ∧
    (∀ w, w ∈ c.weights ↔ ∃ b ∈ c.rules, (cfProbOld a yx sBar x (ruleOf b)).2 = w) ∧ c.weights.Pairwise (· < ·) := by
  intro c
  have hr : ∀ b, b ∈ c.rules ↔ (∃ leaf ∈ suf, b = boxOf a.m (cfCond sStar sBar x leaf)) ∧ pi ≤ (cfProbOld a yx sBar x (ruleOf b)).1 := by
    intro b
    change b ∈ npUnique _ ↔ _
    rw [mem_npUnique, List.mem_filter, List.mem_map, decide_eq_true_eq]
    constructor
    · rintro ⟨⟨leaf, hl, rfl⟩, h⟩
      exact ⟨⟨leaf, hl, rfl⟩, h⟩
    · rintro ⟨⟨leaf, hl, rfl⟩, h⟩
      exact ⟨⟨leaf, hl, rfl⟩, h⟩
  refine ⟨hr, (C38_unique_sorted _).1, fun v => ?_, sortedDistinct _, fun w => ?_, sortedRows _⟩
  · change v ∈ List.insertionSort _ _ ↔ _
    rw [mem_sortedDistinct, List.mem_map]
    constructor
    · rintro ⟨b, hb, rfl⟩
      exact ⟨b, mem_npUnique.2 hb, rfl⟩
    · rintro ⟨b, hb, rfl⟩
      exact ⟨b, mem_npUnique.1 hb, rfl⟩
  · change w ∈ List.insertionSort _ _ ↔ _
    rw [mem_sortedDistinct, List.mem_map]
    constructor
    · rintro ⟨b, hb, rfl⟩
      exact ⟨b, mem_npUnique.2 hb, rfl⟩
    · rintro ⟨b, hb, rfl⟩
      exact ⟨b, mem_npUnique.1 hb, rfl⟩

/-- The probabilities are at most as many as the rules. -/
theorem probs_length_le (a : CfArgs) (yx : ℚ) (sStar sBar : List Nat) (x : Row) (pi : ℚ) (suf : List Box) :
    (returnCfOld a yx sStar sBar x pi suf).probs.length ≤ (returnCfOld a yx sStar sBar x pi suf).rules.length ∧
    ((returnCfOld a yx sStar sBar x pi suf).rules ≠ [] → (returnCfOld a yx sStar sBar x pi suf).probs ≠ []) := by
  obtain ⟨-, -, h3, h4, -, -⟩ := C93_returned a yx sStar sBar x pi suf
  constructor
  · have hnd : (returnCfOld a yx sStar sBar x pi suf).probs.Nodup := h4.imp fun h => ne_of_lt h
    have hsub : (returnCfOld a yx sStar sBar x pi suf).probs ⊆
        (returnCfOld a yx sStar sBar x pi suf).rules.map fun b => (cfProbOld a yx sBar x (ruleOf b)).1 := by
      intro v hv
      obtain ⟨b, hb, rfl⟩ := (h3 v).1 hv
      exact List.mem_map.2 ⟨b, hb, rfl⟩
    simpa using (List.subperm_of_subset hnd hsub).length_le
  · intro hne he
    obtain ⟨b, hb⟩ := List.exists_mem_of_ne_nil _ hne
    have := (h3 _).2 ⟨b, hb, rfl⟩
    rw [he] at this
    simp at this

/-- The result of `return_global_counterfactuals` for one observation comes from its compatible leaves. -/
theorem localCfOld_ok {a : CfArgs} {yx : ℚ} {sStar sBar : List Nat} {x : Row} {w : Nat → ℚ} {accLevel pi : ℚ} {c : CfOld}
    (h : localCfOld a yx sStar sBar x w accLevel pi = .ok c) :
    ∃ suf, getCompatibleOld (a.opposite yx) sStar w x pi accLevel = .ok suf ∧ c = returnCfOld (a.opposite yx) yx sStar sBar x pi suf := by
  unfold localCfOld at h
  cases hg : getCompatibleOld (a.opposite yx) sStar w x pi accLevel with
  | error e => rw [hg] at h; cases h
  | ok suf =>
    rw [hg] at h
    exact ⟨suf, rfl, (Except.ok.inj h).symm⟩

/-- **C93, the rule used for sampling, partial.** `RunExperiments` samples from a returned rule whenever there is one (so its probability
reaches the level): the rule numbered by the number of distinct probabilities. It is the most probable rule if one rule is returned.
Missing (false, see below): several rules. -/
theorem C93_chosen_partial {a : CfArgs} {yx : ℚ} {sStar sBar : List Nat} {x : Row} {w : Nat → ℚ} {accLevel pi : ℚ} {c : CfOld}
    (h : localCfOld a yx sStar sBar x w accLevel pi = .ok c) :
    (chosenOld c = none ↔ c.rules = []) ∧
    ∀ b, chosenOld c = some b → b ∈ c.rules ∧ c.rules[c.probs.length - 1]? = some b ∧
      pi ≤ (cfProbOld (a.opposite yx) yx sBar x (ruleOf b)).1 ∧
      (c.rules.length = 1 → c.rules = [b] ∧ c.probs = [(cfProbOld (a.opposite yx) yx sBar x (ruleOf b)).1] ∧
        c.weights = [(cfProbOld (a.opposite yx) yx sBar x (ruleOf b)).2]) := by
  obtain ⟨suf, -, rfl⟩ := localCfOld_ok h
  obtain ⟨h1, -, h3, h4, h5, -⟩ := C93_returned (a.opposite yx) yx sStar sBar x pi suf
  obtain ⟨hle, hne⟩ := probs_length_le (a.opposite yx) yx sStar sBar x pi suf
  have hw : (returnCfOld (a.opposite yx) yx sStar sBar x pi suf).weights.Nodup :=
    ((List.perm_insertionSort _ _).nodup_iff).2 (List.nodup_dedup _)
  generalize returnCfOld (a.opposite yx) yx sStar sBar x pi suf = c at *
  unfold chosenOld
  by_cases hr : c.rules = []
  · simp [hr]
  · rw [if_neg hr, argmaxQ_sorted h4 (hne hr)]
    have hlt : c.probs.length - 1 < c.rules.length := by
      have := List.length_pos_iff.2 (hne hr)
      omega
    refine ⟨by rw [List.getElem?_eq_getElem hlt]; simp [hr], fun b hb => ?_⟩
    have hm : b ∈ c.rules := List.mem_of_getElem? hb
    refine ⟨hm, hb, ((h1 b).1 hm).2, fun h1' => ?_⟩
    obtain ⟨b', hb'⟩ := List.length_eq_one_iff.1 h1'
    have hbb : b = b' := by simpa [hb'] using hm
    subst hbb
    refine ⟨hb', ?_, ?_⟩
    · have hp1 : c.probs.length = 1 := by
        have := List.length_pos_iff.2 (hne hr)
        omega
      obtain ⟨v, hv⟩ := List.length_eq_one_iff.1 hp1
      have := (h3 v).1 (by simp [hv])
      obtain ⟨b2, hb2, e⟩ := this
      have : b2 = b := by simpa [hb'] using hb2
      rw [hv, ← e, this]
    · have hall : ∀ w' ∈ c.weights, w' = (cfProbOld (a.opposite yx) yx sBar x (ruleOf b)).2 := by
        intro w' hw'
        obtain ⟨b2, hb2, e⟩ := (h5 w').1 hw'
        have : b2 = b := by simpa [hb'] using hb2
        rw [← e, this]
      have hmem := (h5 _).2 ⟨b, hm, rfl⟩
      cases hc : c.weights with
      | nil => rw [hc] at hmem; simp at hmem
      | cons w1 l =>
        rw [hc] at hall hw
        have e1 := hall w1 (by simp)
        cases l with
        | nil => rw [e1]
        | cons w2 l =>
          have e2 := hall w2 (by simp)
          rw [e1, e2] at hw
          simp at hw

/-- Two stumps on column 0, with thresholds 0 and 1; column 1 is the row number. Thirteen rows: six at `-1` of class 1, one at `1/2` of
class 0, six at 2, of which one of class 0. -/
def oldArgs : CfArgs where
  m := 2
  N := 13
  mems := [Mem.ofTree (splitOn 0 0) leafJunk, Mem.ofTree (splitOn 0 1) leafJunk]
  data := fun i j => if j = 0 then (if i < 6 then -1 else if i = 6 then 1/2 else 2) else i
  y := fun i => if i = 6 ∨ i = 7 then 0 else 1
  minSize := 1
  maxDepth := 2
  classifier := true
  target := 7
  down := 0
  up := 0
  nTry := 2
  batch := 2
  maxIter := 2
  maxConv := 5

/-- The observation: row 6, of class 0. -/
def oldX : Row := fun j => if j = 0 then 1/2 else 6

/-- The rules and probabilities returned for it. -/
def oldResult : Option CfOld := (localCfOld oldArgs 0 [0] [1] oldX (fun _ => 1) (3/4) (3/4)).toOption

theorem oldArgs_result : oldResult.map CfOld.rules = some [[(-10000000000, 0), (6, 6)], [(1, 10000000000), (6, 6)]] ∧
    oldResult.map CfOld.probs = some [71/91, 13/14] ∧
    (oldResult.map fun c => c.rules.map fun b => (cfProbOld (oldArgs.opposite 0) 0 [1] oldX (ruleOf b)).1) = some [13/14, 71/91] ∧
    oldResult.map chosenOld = some (some [(1, 10000000000), (6, 6)]) := by
  refine ⟨?_, ?_, ?_, ?_⟩ <;> decide +kernel

/-- The claim that the `k`-th probability is that of the `k`-th rule. -/
def C93_pairing_claim : Prop :=
  ∀ (a : CfArgs) (ts : List TreeArr), List.Forall₂ (TreeStored a.m) ts a.mems →
  ∀ (yx : ℚ) (sStar sBar : List Nat) (x : Row) (w : Nat → ℚ) (accLevel pi : ℚ) (c : CfOld),
    (∀ s, s ∈ sBar ↔ s < a.m ∧ s ∉ sStar) → localCfOld a yx sStar sBar x w accLevel pi = .ok c →
    c.probs = c.rules.map fun b => (cfProbOld (a.opposite yx) yx sBar x (ruleOf b)).1

/-- The claim that the rule used for sampling has the largest probability. -/
def C93_chosen_claim : Prop :=
  ∀ (a : CfArgs) (ts : List TreeArr), List.Forall₂ (TreeStored a.m) ts a.mems →
  ∀ (yx : ℚ) (sStar sBar : List Nat) (x : Row) (w : Nat → ℚ) (accLevel pi : ℚ) (c : CfOld) (b : Box),
    (∀ s, s ∈ sBar ↔ s < a.m ∧ s ∉ sStar) → localCfOld a yx sStar sBar x w accLevel pi = .ok c → chosenOld c = some b →
    ∀ b' ∈ c.rules, (cfProbOld (a.opposite yx) yx sBar x (ruleOf b')).1 ≤ (cfProbOld (a.opposite yx) yx sBar x (ruleOf b)).1

theorem oldArgs_stored : List.Forall₂ (TreeStored oldArgs.m) [splitOn 0 0, splitOn 0 1] oldArgs.mems :=
  .cons (splitOn_stored (by decide) _) (.cons (splitOn_stored (by decide) _) .nil)

/-- **C93's pairing and choice are false of the code**: `np.unique` sorts the rules and the probabilities separately; the second rule
(probability 71/91) is reported with 13/14 and used for sampling, while the first rule has probability 13/14. -/
theorem C93_unique_false : ¬ C93_pairing_claim ∧ ¬ C93_chosen_claim := by
  have hr := oldArgs_result
  have hb : ∀ s, s ∈ [1] ↔ s < oldArgs.m ∧ s ∉ [0] := by
    intro s
    simp only [oldArgs, List.mem_singleton]
    omega
  unfold oldResult at hr
  cases hl : localCfOld oldArgs 0 [0] [1] oldX (fun _ => 1) (3/4) (3/4) with
  | error e => rw [hl] at hr; exact absurd hr.1 (by simp [Except.toOption])
  | ok c =>
    rw [hl] at hr
    obtain ⟨h1, h2, h3, h4⟩ := hr
    have h1 := Option.some.inj h1
    have h2 := Option.some.inj h2
    have h3 : c.rules.map (fun b => (cfProbOld (oldArgs.opposite 0) 0 [1] oldX (ruleOf b)).1) = _ := Option.some.inj h3
    have h4 := Option.some.inj h4
    constructor
    · intro h
      have := h _ _ oldArgs_stored _ _ _ _ _ _ _ c hb hl
      rw [h2, h3] at this
      norm_num at this
    · intro h
      have := h _ _ oldArgs_stored _ _ _ _ _ _ _ c _ hb hl h4 [(-10000000000, 0), (6, 6)] (by rw [h1]; simp)
      revert this
      decide +kernel

/-- **C93, regional rules.** `return_ge_counterfactuals` returns exactly the conditions of the compatible leaves (the leaf on `S*`, the rule
elsewhere) whose probability reaches the level, each with its own probability and weights. -/
theorem C93_regional {a : CfArgs} {yx : ℚ} {sStar : List Nat} {x : Row} {cond : Rule} {w : Nat → ℚ} {accLevel pi : ℚ}
    {l : List (Rule × ℚ × List ℚ)} (h : regionalCfOld a yx sStar x cond w accLevel pi = .ok l) :
    ∃ suf, getCompatibleOld (a.opposite yx) sStar w x pi accLevel = .ok suf ∧
      (∀ p ∈ l, p.2 = cfProbOld (a.opposite yx) yx [] x p.1 ∧ pi ≤ p.2.1 ∧ ∀ s, s ∉ sStar → p.1 s = cond s) ∧
      ∀ leaf ∈ suf, pi ≤ (cfProbOld (a.opposite yx) yx [] x (geCond sStar cond leaf)).1 → ∃ p ∈ l, p.1 = geCond sStar cond leaf := by
  unfold regionalCfOld at h
  cases hg : getCompatibleOld (a.opposite yx) sStar w x pi accLevel with
  | error e => rw [hg] at h; cases h
  | ok suf =>
    rw [hg] at h
    obtain rfl := Except.ok.inj h
    refine ⟨suf, rfl, fun p hp => ?_, fun leaf hl hpi => ?_⟩
    · unfold returnGeOld at hp
      obtain ⟨c, hc, rfl⟩ := List.mem_map.1 hp
      rw [List.mem_filter, decide_eq_true_eq] at hc
      obtain ⟨leaf, -, rfl⟩ := List.mem_map.1 hc.1
      exact ⟨rfl, hc.2, fun s hs => if_neg hs⟩
    · refine ⟨(geCond sStar cond leaf, cfProbOld (a.opposite yx) yx [] x (geCond sStar cond leaf)), ?_, rfl⟩
      unfold returnGeOld
      exact List.mem_map.2 ⟨_, List.mem_filter.2 ⟨List.mem_map.2 ⟨leaf, hl, rfl⟩, decide_eq_true hpi⟩, rfl⟩

/-- **C93, the two versions agree on binary outputs.** If all outputs are 0 or 1, the probability and the weights of a condition are those
that utils_cr.py computes for the opposite class. -/
theorem C93_binary {a : CfArgs} (hc : a.classifier = true) {yx : ℚ} (hyx : yx = 0 ∨ yx = 1) (hy : ∀ i, a.y i = 0 ∨ a.y i = 1)
    (sBar : List Nat) (x : Row) (cond : Rule) :
    (cfProbOld (a.opposite yx) yx sBar x cond).1 = (cfProb (a.opposite yx) sBar x cond).1 ∧
    (cfProbOld (a.opposite yx) yx sBar x cond).2 = (List.range a.N).map (cfProb (a.opposite yx) sBar x cond).2 := by
  have ho : a.opposite yx = { a with target := 1 - yx } := if_pos hc
  rw [ho]
  unfold cfProbOld cfProb
  simp only [hc, if_true]
  refine ⟨?_, rfl⟩
  unfold ddpCond cdpCond
  refine cellSum_congr fun c _ i _ => ?_
  rw [ddpHit_true, cdpHit_true]
  rcases hy i with h | h <;> rcases hyx with h' | h' <;> simp [h, h']

/-- The rows of a leaf: `lo < x <= hi` in every column. -/
theorem inHalfB_iff {m : Nat} {r : Rule} {z : Row} : inHalfB m r z = true ↔ InRule m r z := by
  unfold inHalfB InRule
  simp only [List.all_eq_true, List.mem_range, Bool.and_eq_true, decide_eq_true_eq]
  exact ⟨fun h j hj => ⟨(h j hj).2, (h j hj).1⟩, fun h j hj => ⟨(h j hj).2, (h j hj).1⟩⟩

open Classical in
/-- **C93, the compatible leaves.** Every compatible leaf contains a training row, and the share of the rows with the wanted output among
the rows in the leaf is at least the level. -/
theorem C93_leaves {a : CfArgs} {sStar : List Nat} {w : Nat → ℚ} {x : Row} {pi accLevel : ℚ} {suf : List Box}
    (h : getCompatibleOld a sStar w x pi accLevel = .ok suf) :
    ∀ b ∈ suf, (∃ i < a.N, InRule a.m (ruleOf b) (a.data i)) ∧
      accLevel ≤ (((Finset.range a.N).filter fun i => InRule a.m (ruleOf b) (a.data i) ∧ a.hit i = true).card : ℚ) /
        ((Finset.range a.N).filter fun i => InRule a.m (ruleOf b) (a.data i)).card := by
  unfold getCompatibleOld at h
  cases hc : cntRowsOld a w x with
  | error e => rw [hc] at h; cases h
  | ok rows =>
    rw [hc] at h
    obtain rfl := Except.ok.inj h
    intro b hb
    have hb' := (List.mem_filter.1 hb).2
    unfold leafAccOld npMean at hb'
    by_cases he : ((List.range a.N).filter fun i => inHalfB a.m (ruleOf b) (a.data i)).map (fun i => if a.hit i then (1 : ℚ) else 0) = []
    · rw [if_pos he] at hb'
      cases hb'
    · rw [if_neg he] at hb'
      simp only [reaches, decide_eq_true_eq] at hb'
      constructor
      · rw [List.map_eq_nil_iff, List.filter_eq_nil_iff] at he
        push Not at he
        obtain ⟨i, hi, hin⟩ := he
        exact ⟨i, List.mem_range.1 hi, inHalfB_iff.1 hin⟩
      · refine le_trans hb' (le_of_eq ?_)
        rw [List.length_map]
        have e1 : (((List.range a.N).filter fun i => inHalfB a.m (ruleOf b) (a.data i)).length : ℚ) =
            ((Finset.range a.N).filter fun i => InRule a.m (ruleOf b) (a.data i)).card := by
          congr 1
          rw [Finset.card_def, Finset.filter_val, Finset.range_val, ← Multiset.coe_range, Multiset.filter_coe, Multiset.coe_card]
          congr 1
          refine List.filter_congr fun i _ => ?_
          rw [Bool.eq_iff_iff, inHalfB_iff]
          simp
        have e2 : (((List.range a.N).filter fun i => inHalfB a.m (ruleOf b) (a.data i)).map fun i => if a.hit i then (1 : ℚ) else 0).sum =
            (((Finset.range a.N).filter fun i => InRule a.m (ruleOf b) (a.data i) ∧ a.hit i = true).card : ℚ) := by
          have : ∀ l : List Nat, (l.map fun i => if a.hit i then (1 : ℚ) else 0).sum = ((l.filter fun i => a.hit i).length : ℚ) := by
            intro l
            induction l with
            | nil => simp
            | cons i l ih =>
              rw [List.map_cons, List.sum_cons, ih, List.filter_cons]
              by_cases hh : a.hit i = true
              · simp [hh, add_comm]
              · simp [hh]
          rw [this, List.filter_filter]
          congr 1
          rw [Finset.card_def, Finset.filter_val, Finset.range_val, ← Multiset.coe_range, Multiset.filter_coe, Multiset.coe_card]
          congr 1
          refine List.filter_congr fun i _ => ?_
          rw [Bool.eq_iff_iff, Bool.and_eq_true, inHalfB_iff]
          simp [and_comm]
        rw [e1, e2]

/-- The probability of the wanted output in the leaves of `z`. -/
def CfArgs.probAt (a : CfArgs) (z : Row) : ℚ :=
  if a.classifier then (sdpRule a.mems (List.range a.m) z a.target a.data a.y a.minSize a.maxDepth a.N true (0, 0)).1
  else (cdpRule a.mems (List.range a.m) z 0 a.down a.up a.data a.y a.minSize a.maxDepth a.N false).1

/-- The rows whose leaves are joined: the training rows of wanted output with a positive weight; the observation if there is none. -/
def OldRow (a : CfArgs) (w : Nat → ℚ) (x z : Row) : Prop :=
  (∃ i < a.N, a.hit i = true ∧ w i ≠ 0 ∧ z = a.data i) ∨ ((∀ i < a.N, a.hit i = true → w i = 0) ∧ a.classifier = true ∧ z = x)

theorem mem_cntRowsOld {a : CfArgs} {w : Nat → ℚ} {x : Row} {rows : List Row} (h : cntRowsOld a w x = .ok rows) (z : Row) :
    z ∈ rows ↔ OldRow a w x z := by
  have hl : ∀ z, z ∈ ((List.range a.N).filter fun i => decide (w i ≠ 0) && a.hit i).map a.data ↔
      ∃ i < a.N, a.hit i = true ∧ w i ≠ 0 ∧ z = a.data i := by
    intro z
    rw [List.mem_map]
    constructor
    · rintro ⟨i, hi, rfl⟩
      rw [List.mem_filter, List.mem_range, Bool.and_eq_true, decide_eq_true_eq] at hi
      exact ⟨i, hi.1, hi.2.2, hi.2.1, rfl⟩
    · rintro ⟨i, h1, h2, h3, rfl⟩
      exact ⟨i, by rw [List.mem_filter, List.mem_range, Bool.and_eq_true, decide_eq_true_eq]; exact ⟨h1, h3, h2⟩, rfl⟩
  unfold cntRowsOld at h
  simp only at h
  by_cases he : (((List.range a.N).filter fun i => decide (w i ≠ 0) && a.hit i).map a.data).isEmpty = true
  · rw [if_pos he] at h
    have hno : ∀ i < a.N, a.hit i = true → w i = 0 := by
      intro i hi hh
      by_contra hw
      have := (hl _).2 ⟨i, hi, hh, hw, rfl⟩
      rw [List.isEmpty_iff.1 he] at this
      simp at this
    by_cases hc : a.classifier = true
    · rw [if_pos hc] at h
      obtain rfl := Except.ok.inj h
      rw [List.mem_singleton]
      constructor
      · rintro rfl
        exact Or.inr ⟨hno, hc, rfl⟩
      · rintro (⟨i, hi, hh, hw, -⟩ | ⟨-, -, e⟩)
        · exact absurd (hno i hi hh) hw
        · exact e
    · rw [if_neg hc] at h
      cases h
  · rw [if_neg he] at h
    obtain rfl := Except.ok.inj h
    rw [hl]
    constructor
    · exact Or.inl
    · rintro (h | ⟨hno, -, -⟩)
      · exact h
      · exfalso
        apply he
        rw [List.isEmpty_iff, List.map_eq_nil_iff, List.filter_eq_nil_iff]
        intro i hi
        by_cases hh : a.hit i = true
        · simp [hno i (List.mem_range.1 hi) hh]
        · simp [hh]

theorem pickLeavesOld_mem {pi : ℚ} {cands : List (ℚ × Box)} (hne : cands ≠ []) {b : Box} (h : b ∈ pickLeavesOld pi cands) :
    ∃ p ∈ cands, p.2 = b ∧ (pi ≤ p.1 ∨ (∀ q ∈ cands, q.1 < pi) ∧ ∀ q ∈ cands, q.1 ≤ p.1) := by
  unfold pickLeavesOld at h
  simp only at h
  split at h
  · rw [mem_npUnique, List.mem_map] at h
    obtain ⟨p, hp, rfl⟩ := h
    rw [List.mem_filter, decide_eq_true_eq] at hp
    exact ⟨p, hp.1, rfl, Or.inl hp.2⟩
  · next hg =>
    rw [ne_eq, not_not, List.filter_eq_nil_iff] at hg
    rw [List.mem_singleton] at h
    obtain ⟨h1, h2⟩ := argmaxQ_spec (f := Prod.fst) hne (0, [])
    refine ⟨_, h1, h.symm, Or.inr ⟨fun q hq => ?_, h2⟩⟩
    simpa using hg q hq

/-- **C93, origin of the compatible leaves.** Every compatible leaf is, up to rounding its bounds to the nearest multiple of 0.01, a rule that
contains a row `z` and whose bounds off `S*` are those of the leaves of `z` for all variables: `z` is a training row of wanted output
and positive weight, or the observation if there is no such row. The probability at `z` reaches the level, or no row's does and
`z` has the largest one. -/
theorem C93_origin {a : CfArgs} {sStar : List Nat} {w : Nat → ℚ} {x : Row} {pi accLevel : ℚ} {suf : List Box}
    (hS : ∀ s ∈ sStar, s < a.m)
    (hdata : ∀ i < a.N, ∀ j < a.m, -10000000000 < a.data i j ∧ a.data i j ≤ 10000000000)
    (hx : ∀ j < a.m, -10000000000 < x j ∧ x j ≤ 10000000000) (h : getCompatibleOld a sStar w x pi accLevel = .ok suf) :
    ∀ b ∈ suf, ∃ (r : Rule) (z : Row), OldRow a w x z ∧ InRule a.m r z ∧
      (∀ s < a.m, |(ruleOf b s).1 - (r s).1| ≤ 1/200 ∧ |(ruleOf b s).2 - (r s).2| ≤ 1/200) ∧
      (∀ s < a.m, s ∉ sStar → ∃ yx t,
        r s = (sdpRule a.mems (List.range a.m) z yx a.data a.y a.minSize a.maxDepth a.N a.classifier t).2 s) ∧
      (pi ≤ a.probAt z ∨ (∀ z', OldRow a w x z' → a.probAt z' < pi) ∧ ∀ z', OldRow a w x z' → a.probAt z' ≤ a.probAt z) := by
  unfold getCompatibleOld at h
  cases hc : cntRowsOld a w x with
  | error e => rw [hc] at h; cases h
  | ok rows =>
    rw [hc] at h
    obtain rfl := Except.ok.inj h
    have hrows := mem_cntRowsOld hc
    have hbox : ∀ z, OldRow a w x z → ∀ j < a.m, -10000000000 < z j ∧ z j ≤ 10000000000 := by
      rintro z (⟨i, hi, -, -, rfl⟩ | ⟨-, -, rfl⟩)
      · exact hdata i hi
      · exact hx
    have hcand : ∀ p ∈ leafCandsOld a rows, ∃ z, OldRow a w x z ∧ p.1 = a.probAt z ∧ ∃ yx t,
        p.2 = boxOf a.m (sdpRule a.mems (List.range a.m) z yx a.data a.y a.minSize a.maxDepth a.N a.classifier t).2 := by
      intro p hp
      unfold leafCandsOld at hp
      obtain ⟨z, hz, rfl⟩ := List.mem_map.1 hp
      refine ⟨z, (hrows z).1 hz, ?_, ?_⟩
      · unfold CfArgs.probAt
        cases a.classifier <;> rfl
      · cases hcl : a.classifier with
        | true => exact ⟨a.target, (0, 0), by simp⟩
        | false =>
          refine ⟨0, (a.down, a.up), ?_⟩
          simp only [Bool.false_eq_true, if_false]
          rw [← (C48_own_target_is_sdp a.mems (List.range a.m) z 0 (a.down, a.up) a.data a.y a.minSize a.maxDepth a.N false).2]
    have hrne : rows ≠ [] := by
      intro e
      unfold cntRowsOld at hc
      simp only at hc
      split at hc
      · split at hc
        · obtain rfl := Except.ok.inj hc
          cases e
        · cases hc
      · next hn =>
        obtain rfl := Except.ok.inj hc
        exact hn (by rw [e]; rfl)
    have hcne : leafCandsOld a rows ≠ [] := by
      unfold leafCandsOld
      simpa using hrne
    intro b hb
    obtain ⟨b0, hb0, rfl⟩ := mem_compatibleLeaves (List.mem_filter.1 hb).1
    unfold joinLeaves at hb0
    obtain ⟨b1, hb1, rfl⟩ := List.mem_map.1 hb0
    obtain ⟨p, hp, rfl, hprob⟩ := pickLeavesOld_mem hcne hb1
    obtain ⟨z, hz, hp1, yx, t, hp2⟩ := hcand p hp
    have hin := C25_rule_contains_instance_partial a.mems (List.range a.m) a.m yx a.data a.y a.minSize a.maxDepth a.N a.classifier t (hbox z hz)
    obtain ⟨hle, hoff⟩ := C37_contains_original (S := sStar) a.m (ruleOf p.2)
      (l := ((pickLeavesOld pi (leafCandsOld a rows)).filter fun r => !allclose a.m (ruleOf r) (ruleOf p.2)).map ruleOf) (by
        intro r hr k hk
        obtain ⟨b2, hb2, rfl⟩ := List.mem_map.1 hr
        obtain ⟨p2, hp2, rfl, -⟩ := pickLeavesOld_mem hcne (List.mem_filter.1 hb2).1
        obtain ⟨z2, hz2, -, yx2, t2, e2⟩ := hcand p2 hp2
        have hin2 := C25_rule_contains_instance_partial a.mems (List.range a.m) a.m yx2 a.data a.y a.minSize a.maxDepth a.N a.classifier t2
          (hbox z2 hz2) k (hS k hk)
        rw [e2, ruleOf_boxOf _ (hS k hk)]
        exact le_trans (le_of_lt hin2.1) hin2.2)
    generalize findUnion sStar (ruleOf p.2) (((pickLeavesOld pi (leafCandsOld a rows)).filter
      fun r => !allclose a.m (ruleOf r) (ruleOf p.2)).map ruleOf) = r at *
    refine ⟨r, z, hz, fun j hj => ?_, fun j hj => ?_, fun j hj hn => ⟨yx, t, ?_⟩, ?_⟩
    · have h1 := hle j hj
      rw [hp2, ruleOf_boxOf _ hj] at h1
      exact ⟨lt_of_le_of_lt h1.1 (hin j hj).1, le_trans (hin j hj).2 h1.2⟩
    · rw [ruleOf_roundBox _ _ (by simpa using hj), ruleOf_boxOf _ hj]
      exact ⟨roundCents_near _, roundCents_near _⟩
    · rw [hoff j hn, hp2, ruleOf_boxOf _ hj]
    · have hall : ∀ z', OldRow a w x z' → ∃ q ∈ leafCandsOld a rows, q.1 = a.probAt z' := by
        intro z' hz'
        refine ⟨_, List.mem_map_of_mem ((hrows z').2 hz'), ?_⟩
        unfold CfArgs.probAt
        cases a.classifier <;> rfl
      rcases hprob with hk | ⟨hk1, hk2⟩
      · exact Or.inl (hp1 ▸ hk)
      · refine Or.inr ⟨fun z' hz' => ?_, fun z' hz' => ?_⟩
        · obtain ⟨q, hq, e⟩ := hall z' hz'
          rw [← e]
          exact hk1 q hq
        · obtain ⟨q, hq, e⟩ := hall z' hz'
          rw [← e, ← hp1]
          exact hk2 q hq

/-- A concrete case: the two rules of the witness above come from two compatible leaves. -/
example : ((getCompatibleOld (oldArgs.opposite 0) [0] (fun _ => 1) oldX (3/4) (3/4)).toOption.map List.length) = some 2 := by decide +kernel

/-- **C93, other classes.** The target is `1 - y`: if no training row has that class (for example if the observation is of class 2), no
counterfactual rule is returned for a positive accuracy level, although other classes exist. -/
theorem C93_no_target {a : CfArgs} (hc : a.classifier = true) {yx : ℚ} (hy : ∀ i < a.N, a.y i ≠ 1 - yx) (sStar sBar : List Nat) (x : Row)
    (w : Nat → ℚ) {accLevel : ℚ} (hacc : 0 < accLevel) (pi : ℚ) :
    localCfOld a yx sStar sBar x w accLevel pi = .ok ⟨[], [], []⟩ := by
  have ho : a.opposite yx = { a with target := 1 - yx } := if_pos hc
  have hhit : ∀ i < a.N, (a.opposite yx).hit i = false := by
    intro i hi
    rw [ho]
    simp [CfArgs.hit, wanted, hc, hy i hi]
  have hN : (a.opposite yx).N = a.N := by rw [ho]
  unfold localCfOld
  cases hg : getCompatibleOld (a.opposite yx) sStar w x pi accLevel with
  | error e =>
    exfalso
    unfold getCompatibleOld cntRowsOld at hg
    have : (a.opposite yx).classifier = true := by rw [ho]; exact hc
    simp only [this, if_true] at hg
    split at hg
    · next e' he => split at he <;> cases he
    · cases hg
  | ok suf =>
    have hs : suf = [] := by
      rw [List.eq_nil_iff_forall_not_mem]
      intro b hb
      classical
      have h2 := (C93_leaves hg b hb).2
      have h0 : ((Finset.range (a.opposite yx).N).filter fun i =>
          InRule (a.opposite yx).m (ruleOf b) ((a.opposite yx).data i) ∧ (a.opposite yx).hit i = true) = ∅ := by
        rw [Finset.filter_eq_empty_iff]
        intro i hi
        rw [Finset.mem_range, hN] at hi
        rw [hhit i hi]
        simp
      have : (((Finset.range (a.opposite yx).N).filter fun i =>
          InRule (a.opposite yx).m (ruleOf b) ((a.opposite yx).data i) ∧ (a.opposite yx).hit i = true).card : ℚ) = 0 := by
        rw [h0]; simp
      have h3 := h2
      rw [show ∀ p q : ℚ, p / q = p * (1 / q) from fun p q => by ring] at h3
      have h4 := this
      have : accLevel ≤ 0 := by
        refine le_trans h3 (le_of_eq ?_)
        have h5 : (((Finset.range (a.opposite yx).N).filter fun i =>
          InRule (a.opposite yx).m (ruleOf b) ((a.opposite yx).data i) ∧ (a.opposite yx).hit i = true).card : ℚ) = 0 := by
            convert h4
        rw [h5, zero_mul]
      linarith
    subst hs
    rfl

/-- A concrete case: three classes, an observation of class 2. -/
example : oldArgs.classifier = true ∧ (∀ i < oldArgs.N, oldArgs.y i ≠ 1 - 2) := by
  refine ⟨rfl, ?_⟩
  decide +kernel

/-- **C93, regression.** The regression version raises when no training row of the projected leaf has a wanted output. -/
theorem C93_regression_raises {a : CfArgs} (hc : a.classifier = false) {w : Nat → ℚ}
    (hw : ∀ i < a.N, w i ≠ 0 → a.y i < a.down ∨ a.up < a.y i) (yx : ℚ) (sStar sBar : List Nat) (x : Row) (accLevel pi : ℚ) :
    localCfOld a yx sStar sBar x w accLevel pi = .error "ValueError" := by
  have ho : a.opposite yx = a := if_neg (by simp [hc])
  unfold localCfOld getCompatibleOld cntRowsOld
  rw [ho]
  have : ((List.range a.N).filter fun i => decide (w i ≠ 0) && a.hit i).map a.data = [] := by
    rw [List.map_eq_nil_iff, List.filter_eq_nil_iff]
    intro i hi
    by_cases h0 : w i = 0
    · simp [h0]
    · rcases hw i (List.mem_range.1 hi) h0 with h | h
      · simp [CfArgs.hit, wanted, hc, not_le.2 h]
      · simp [CfArgs.hit, wanted, hc, not_le.2 h]
  simp only [this, hc]
  rfl

example : ∀ i < regArgs.N, (fun k : Nat => if k = 1 then (1 : ℚ) else 0) i ≠ 0 → regArgs.y i < regArgs.down ∨ regArgs.up < regArgs.y i := by
  decide +kernel

/-- **C93, the accuracy for the original model** is never a number: `RunExperiments` drops its argument `model`. -/
theorem C93_original_accuracy {M : Type} (model : Option M) (outcome : M → Row → Row → Bool) (obs : List (Row × Row)) :
    originalAccuracy model outcome obs = none := rfl

end Acv
