import Verif.Model.DdpRule
import Verif.Props.Projected
import Verif.Props.Cdp

/-!
# C92: divergent rules and weights
-/

namespace Acv

theorem ddpHit_true (yx : ℚ) (t : ℚ × ℚ) (y : ℚ) : ddpHit true yx t y = if y ≠ yx then 1 else 0 := by
  by_cases h : y = yx
  · simp [ddpHit, ind, h]
  · simp [ddpHit, ind, h, Ne.symm h]

theorem ddpHit_false (yx : ℚ) (t : ℚ × ℚ) (y : ℚ) : ddpHit false yx t y = if y < t.1 ∨ t.2 < y then 1 else 0 := by
  by_cases h1 : t.1 ≤ y <;> by_cases h2 : y ≤ t.2 <;> simp [ddpHit, ind, h1, h2, not_lt.mpr, not_le.mp]

/-- The methods raise, or read beyond the intervals, for the same arguments; otherwise they return one answer per sample. -/
theorem acxLoop_some {α : Type} {classifier : Bool} {quant : Row → ℚ × ℚ} {a : AcxArgs}
    {f : List Nat → Row → ℚ → (Nat → Row) → (Nat → ℚ) → Nat → Nat → ℚ × ℚ → α} {out : List α} (h : acxLoop classifier quant a f = some out) :
    ∃ t, acxT classifier quant a = some t ∧ a.checked = true ∧ a.X.length ≤ t.length ∧ out.length = a.X.length ∧
      ∀ i (hi : i < out.length), out[i] = f (a.S.getD i []) (a.X.getD i 0) (a.y.getD i 0) (fun j => a.data.getD j 0)
        (fun j => a.yData.getD j 0) a.minSize a.data.length (t.getD i (0, 0)) := by
  unfold acxLoop at h
  by_cases hc : a.checked = true
  · rw [if_pos hc] at h
    cases ht : acxT classifier quant a with
    | none => rw [ht] at h; simp at h
    | some t =>
      rw [ht] at h
      simp only [Option.bind_some] at h
      by_cases hl : t.length < a.X.length
      · rw [if_pos hl] at h
        simp at h
      · rw [if_neg hl] at h
        simp only [Option.some.injEq] at h
        subst h
        refine ⟨t, rfl, hc, not_lt.mp hl, by simp, fun i hi => ?_⟩
        simp
  · rw [if_neg hc] at h
    simp at h

/-- **C92, the probability and the weights.** When `compute_ddp_weights` answers, it returns for every sample `i` weights over the background
rows and a number; the number is the weighted frequency of the background rows with *another* output (classifier) or with an output outside
`[t0, t1]` (regressor), where `[t0, t1]` is row `i` of the argument `t` or the quantiles of the model at `X[i]` if no `t` is given; the
weights are those of the sufficient rule of sample `i` (C27); and the number lies in `[0, 1]`. -/
theorem C92_weights {mems : List Mem} {maxDepth : Nat} {classifier : Bool} {quant : Row → ℚ × ℚ} {a : AcxArgs}
    {out : List (ℚ × (Nat → ℚ))} (h : acxDdpWeights mems maxDepth classifier quant a = some out) :
    out.length = a.X.length ∧ ∀ i (hi : i < out.length),
      (out[i].2 = ruleWeights mems (a.S.getD i []) (a.X.getD i 0) (fun j => a.data.getD j 0) a.minSize maxDepth a.data.length) ∧
      (classifier = true → out[i].1 = weightedFreq a.data.length out[i].2 fun j => a.yData.getD j 0 ≠ a.y.getD i 0) ∧
      (classifier = false → ∀ lo hi', ((∃ l, a.t = .rows l ∧ l[i]? = some (lo, hi')) ∨ (a.t = .none ∧ quant (a.X.getD i 0) = (lo, hi'))) →
        out[i].1 = weightedFreq a.data.length out[i].2 fun j => a.yData.getD j 0 < lo ∨ hi' < a.yData.getD j 0) ∧
      0 ≤ out[i].1 ∧ out[i].1 ≤ 1 := by
  obtain ⟨t, ht, hchk, hlen, hol, hget⟩ := acxLoop_some h
  refine ⟨hol, fun i hi => ?_⟩
  rw [hget i hi]
  have hsub : ∀ c ∈ cellsSet mems (a.S.getD i []) (a.X.getD i 0) (fun j => a.data.getD j 0) a.minSize maxDepth a.data.length,
      c.Sublist (List.range a.data.length) := fun c hc => forestRun_sublist hc
  refine ⟨rfl, ?_, ?_, ?_⟩
  · intro hcl
    subst hcl
    exact cellSum_weightedFreq hsub _ fun j => ddpHit_true _ _ _
  · intro hcl lo hi' hsrc
    subst hcl
    have htt : t.getD i (0, 0) = (lo, hi') := by
      have hiX : i < a.X.length := hol ▸ hi
      rcases hsrc with ⟨l, hl, hli⟩ | ⟨hn, hq⟩
      · simp only [acxT, hl, Bool.false_eq_true, if_false, Option.some.injEq] at ht
        subst ht
        rw [List.getD_eq_getElem?_getD, hli, Option.getD_some]
      · simp only [acxT, hn, Bool.false_eq_true, if_false, Option.some.injEq] at ht
        subst ht
        rw [← hq]
        simp [List.getD_eq_getElem?_getD, List.getElem?_eq_getElem hiX]
    simp only [htt]
    exact cellSum_weightedFreq hsub _ fun j => ddpHit_false _ _ _
  · refine cellSum_range fun j => ?_
    cases classifier
    · rw [ddpHit_false]; split <;> norm_num
    · rw [ddpHit_true]; split <;> norm_num

/-- **C92, the rule.** `compute_ddp_rule`, `compute_ddp_weights` and `compute_sdp_rule` answer for the same arguments; the rules of
`compute_ddp_rule` are the sufficient rules of `compute_sdp_rule`, and its probabilities are those of `compute_ddp_weights`. -/
theorem C92_rule_partial (mems : List Mem) (maxDepth : Nat) (classifier : Bool) (quant : Row → ℚ × ℚ) (a : AcxArgs) :
    ((acxDdpRule mems maxDepth classifier quant a).map fun l => l.map Prod.snd) =
      ((acxSdpRule mems maxDepth classifier quant a).map fun l => l.map Prod.snd) ∧
    ((acxDdpRule mems maxDepth classifier quant a).map fun l => l.map Prod.fst) =
      ((acxDdpWeights mems maxDepth classifier quant a).map fun l => l.map Prod.fst) := by
  unfold acxDdpRule acxSdpRule acxDdpWeights acxLoop
  by_cases hc : a.checked = true
  · rw [if_pos hc, if_pos hc, if_pos hc]
    cases acxT classifier quant a with
    | none => simp
    | some t =>
      simp only [Option.bind_some]
      by_cases hl : t.length < a.X.length
      · simp [hl]
      · simp only [hl, if_false, Option.map_some, List.map_map]
        exact ⟨rfl, rfl⟩
  · rw [if_neg hc, if_neg hc, if_neg hc]
    simp

/-- **C92, every observation of the rule.** For every forest in memory: an observation `z` in the divergent rule of `x` has the same
divergence probability, rule and weights as `x`. -/
theorem C92_same_in_rule (mems : List Mem) {S : List Nat} {m : Nat} (hS : ∀ s ∈ S, s < m) {x z : Row} (yx : ℚ) (data : Nat → Row)
    (y : Nat → ℚ) (minSize maxDepth N : Nat) (classifier : Bool) (t : ℚ × ℚ)
    (hz : InRule m (ddpRule mems S x yx data y minSize maxDepth N classifier t).2 z) :
    ddpRule mems S z yx data y minSize maxDepth N classifier t = ddpRule mems S x yx data y minSize maxDepth N classifier t ∧
    ddpWeights mems S z yx data y minSize maxDepth N classifier t = ddpWeights mems S x yx data y minSize maxDepth N classifier t := by
  have h := forestRun_same (z := z) (data := data) (minSize := minSize) (maxDepth := maxDepth) (N := N) mems Rule.init
    (fun j hj => hz j (hS j hj))
  unfold ddpRule ddpWeights
  rw [h]
  exact ⟨rfl, rfl⟩

/-- The divergence probabilities of the three methods are one number. -/
theorem C92_same_probability (mems : List Mem) (S : List Nat) (x : Row) (yx : ℚ) (data : Nat → Row)
    (y : Nat → ℚ) (minSize maxDepth N : Nat) (classifier : Bool) (t : ℚ × ℚ) :
    (ddpRule mems S x yx data y minSize maxDepth N classifier t).1 = ddpRf mems S x yx data y minSize maxDepth N classifier t ∧
    (ddpWeights mems S x yx data y minSize maxDepth N classifier t).1 = ddpRf mems S x yx data y minSize maxDepth N classifier t :=
  ⟨rfl, rfl⟩

/-- A call with two observations, ten background rows and intervals. -/
def ddpArgs (t : TArg) : AcxArgs :=
  ⟨[diag 4, diag 1], [1, 0], (List.range 10).map diag, [1, 1, 1, 0, 0, 0, 0, 0, 0, 0], [[0, 2], [0]], 1, t⟩

def ddpMems : List Mem := [Mem.ofTree ladderTree leafJunk, Mem.ofTree rootSplit leafJunk]

example : ((acxDdpWeights ddpMems 3 true (fun _ => (0, 0)) (ddpArgs .none)).map fun l => l.map Prod.fst) = some [13 / 16, 1] := by decide +kernel

example : ((acxDdpWeights ddpMems 3 false (fun _ => (0, 0)) (ddpArgs (.rows [(0, 0), (1, 1)]))).map fun l => l.map Prod.fst) =
    some [3 / 16, 0] := by decide +kernel

example : ((acxDdpRule ddpMems 3 true (fun _ => (0, 0)) (ddpArgs .none)).map fun l => l.map fun r => [r.2 0, r.2 2]) =
    some [[(1, 10000000000), (-10000000000, 5)], [(-10000000000, 1), (-10000000000, 10000000000)]] := by decide +kernel

/-- The claim of the docstrings (acv_agnosticX.py:489,538): for a regressor `t` may be a number, the level of variation around the
prediction. -/
def C92_scalar_claim : Prop :=
  ∀ (mems : List Mem) (maxDepth : Nat) (quant : Row → ℚ × ℚ) (a : AcxArgs) (v : ℚ), a.checked = true → a.t = .scalar v →
    (acxDdpRule mems maxDepth false quant a).isSome

/-- **C92's documented `t` is false of the code**: every call of a regressor with a number as `t` raises. -/
theorem C92_scalar_raises (mems : List Mem) (maxDepth : Nat) (quant : Row → ℚ × ℚ) {a : AcxArgs} {v : ℚ} (ht : a.t = .scalar v) :
    acxDdpRule mems maxDepth false quant a = none ∧ acxDdpWeights mems maxDepth false quant a = none ∧
    acxSdpRule mems maxDepth false quant a = none := by
  unfold acxDdpRule acxDdpWeights acxSdpRule acxLoop acxT
  rw [ht]
  simp

theorem C92_scalar_false : ¬ C92_scalar_claim := by
  intro h
  have h1 := h ddpMems 3 (fun _ => (0, 0)) (ddpArgs (.scalar 1)) 1 rfl rfl
  rw [(C92_scalar_raises ddpMems 3 _ (a := ddpArgs (.scalar 1)) rfl).1] at h1
  simp at h1

/-- For a classifier the argument `t` has no effect. -/
theorem C92_classifier_ignores_t (mems : List Mem) (maxDepth : Nat) (quant quant' : Row → ℚ × ℚ) (a : AcxArgs) (t' : TArg) :
    acxDdpRule mems maxDepth true quant' { a with t := t' } = acxDdpRule mems maxDepth true quant a ∧
    acxDdpWeights mems maxDepth true quant' { a with t := t' } = acxDdpWeights mems maxDepth true quant a := ⟨rfl, rfl⟩

/-- **C92, which calls answer.** The methods answer exactly if there is at least one sample and one background row, the outputs and the sets have
as many entries as the samples and the background outputs as the background rows, and, for a regressor, `t` is left out or has a row per
sample. -/
theorem C92_answers (mems : List Mem) (maxDepth : Nat) (classifier : Bool) (quant : Row → ℚ × ℚ) (a : AcxArgs) :
    (((acxDdpWeights mems maxDepth classifier quant a).isSome = true ↔
      (a.X ≠ [] ∧ a.y.length = a.X.length ∧ a.S.length = a.X.length ∧ a.data ≠ [] ∧ a.yData.length = a.data.length) ∧
      (classifier = true ∨ a.t = .none ∨ ∃ l, a.t = .rows l ∧ a.X.length ≤ l.length))) ∧
    ((acxDdpRule mems maxDepth classifier quant a).isSome = (acxDdpWeights mems maxDepth classifier quant a).isSome) ∧
    ((acxSdpRule mems maxDepth classifier quant a).isSome = (acxDdpWeights mems maxDepth classifier quant a).isSome) := by
  have key : ∀ {α : Type} (f : List Nat → Row → ℚ → (Nat → Row) → (Nat → ℚ) → Nat → Nat → ℚ × ℚ → α),
      (acxLoop classifier quant a f).isSome = true ↔
        (a.X ≠ [] ∧ a.y.length = a.X.length ∧ a.S.length = a.X.length ∧ a.data ≠ [] ∧ a.yData.length = a.data.length) ∧
        (classifier = true ∨ a.t = .none ∨ ∃ l, a.t = .rows l ∧ a.X.length ≤ l.length) := by
    intro α f
    have hchk : a.checked = true ↔
        (a.X ≠ [] ∧ a.y.length = a.X.length ∧ a.S.length = a.X.length ∧ a.data ≠ [] ∧ a.yData.length = a.data.length) := by
      unfold AcxArgs.checked
      simp only [Bool.and_eq_true, decide_eq_true_eq, Bool.not_eq_true', List.isEmpty_eq_false_iff]
      constructor
      · rintro ⟨⟨⟨⟨h1, h2⟩, h3⟩, h4⟩, h5⟩
        exact ⟨h2, h1.symm, h5.symm, h4, h3.symm⟩
      · rintro ⟨h2, h1, h5, h4, h3⟩
        exact ⟨⟨⟨⟨h1.symm, h2⟩, h3.symm⟩, h4⟩, h5.symm⟩
    have ht : (∃ t, acxT classifier quant a = some t ∧ a.X.length ≤ t.length) ↔
        (classifier = true ∨ a.t = .none ∨ ∃ l, a.t = .rows l ∧ a.X.length ≤ l.length) := by
      unfold acxT
      cases classifier with
      | true => simp
      | false => cases h : a.t <;> simp
    rw [← hchk, ← ht]
    unfold acxLoop
    by_cases hc : a.checked = true
    · rw [if_pos hc]
      cases h : acxT classifier quant a with
      | none => simp
      | some t =>
        by_cases hl : t.length < a.X.length
        · simp [hc, hl]
        · simp [hc, hl, not_lt.1 hl]
    · simp [hc]
  refine ⟨key _, ?_, ?_⟩
  · rw [Bool.eq_iff_iff]
    exact (key _).trans (key _).symm
  · rw [Bool.eq_iff_iff]
    exact (key _).trans (key _).symm

end Acv
