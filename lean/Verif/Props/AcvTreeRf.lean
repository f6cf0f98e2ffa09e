import Verif.Model.AcvTreeRf
import Verif.Props.DdpRule
import Verif.Props.Search

/-!
# C94: the projected forest of `ACVTree`
-/

namespace Acv

/-- The arguments that pass the checks of the methods: at least one sample and one background row, and lists of matching lengths. -/
def AcxArgs.Valid (a : AcxArgs) : Prop :=
  a.X ≠ [] ∧ a.y.length = a.X.length ∧ a.S.length = a.X.length ∧ a.data ≠ [] ∧ a.yData.length = a.data.length

theorem checked_iff (a : AcxArgs) : a.checked = true ↔ a.Valid := by
  unfold AcxArgs.checked AcxArgs.Valid
  simp only [Bool.and_eq_true, decide_eq_true_eq, Bool.not_eq_true', List.isEmpty_eq_false_iff]
  constructor
  · rintro ⟨⟨⟨⟨h1, h2⟩, h3⟩, h4⟩, h5⟩
    exact ⟨h2, h1.symm, h5.symm, h4, h3.symm⟩
  · rintro ⟨h2, h1, h5, h4, h3⟩
    exact ⟨⟨⟨⟨h1.symm, h2⟩, h3.symm⟩, h4⟩, h5.symm⟩

theorem checkedXy_iff (a : AcxArgs) : a.checkedXy = true ↔
    a.X ≠ [] ∧ a.y.length = a.X.length ∧ a.data ≠ [] ∧ a.yData.length = a.data.length := by
  unfold AcxArgs.checkedXy
  simp only [Bool.and_eq_true, decide_eq_true_eq, Bool.not_eq_true', List.isEmpty_eq_false_iff]
  constructor
  · rintro ⟨⟨⟨h1, h2⟩, h3⟩, h4⟩
    exact ⟨h2, h1.symm, h4, h3.symm⟩
  · rintro ⟨h2, h1, h4, h3⟩
    exact ⟨⟨⟨h1.symm, h2⟩, h3.symm⟩, h4⟩

theorem rfLoop_isSome {τ α : Type} (dflt : τ) (t : Option (List τ)) (a : AcxArgs)
    (f : List Nat → Row → ℚ → (Nat → Row) → (Nat → ℚ) → Nat → Nat → τ → α) :
    (rfLoop dflt t a f).isSome = true ↔ a.Valid ∧ ∃ l, t = some l ∧ a.X.length ≤ l.length := by
  rw [← checked_iff]
  unfold rfLoop
  by_cases hc : a.checked = true
  · rw [if_pos hc]
    cases t with
    | none => simp
    | some l =>
      by_cases hl : l.length < a.X.length
      · simp [hl, hc, not_le.2 hl]
      · simp [hl, hc, not_lt.1 hl]
  · simp [hc]

theorem rfLoop_some {τ α : Type} {dflt : τ} {t : Option (List τ)} {a : AcxArgs}
    {f : List Nat → Row → ℚ → (Nat → Row) → (Nat → ℚ) → Nat → Nat → τ → α} {out : List α} (h : rfLoop dflt t a f = some out) :
    ∃ l, t = some l ∧ out = (List.range a.X.length).map fun i =>
      f (a.S.getD i []) (a.X.getD i 0) (a.y.getD i 0) (fun j => a.data.getD j 0) (fun j => a.yData.getD j 0) a.minSize a.data.length
        (l.getD i dflt) := by
  unfold rfLoop at h
  by_cases hc : a.checked = true
  · rw [if_pos hc] at h
    cases t with
    | none => simp at h
    | some l =>
      simp only [Option.bind_some] at h
      by_cases hl : l.length < a.X.length
      · rw [if_pos hl] at h
        simp at h
      · rw [if_neg hl] at h
        simp only [Option.some.injEq] at h
        exact ⟨l, rfl, h.symm⟩
  · rw [if_neg hc] at h
    simp at h

/-! ## The documented number -/

/-- **C94, the documented number `t`.** Each of these methods of `ACVTree` raises whenever `t` is a number, the documented form, or not given (the
default is the number 20), whatever the other arguments are, for classifiers and regressors. -/
theorem C94_number_raises (sort : (Nat → ℚ) → List Nat → List Nat) (mems : List Mem) (maxDepth cols : Nat) (m : TreeAttrs)
    (classifier : Bool) {a : AcxArgs} {v : ℚ} (ht : a.t = .scalar v) (C : List (List Nat)) (pi : ℚ) (minimal : Nat) (stop : Bool)
    (half : Nat) :
    treeSdpRf mems maxDepth classifier a = none ∧ treeExpRf mems maxDepth a = none ∧ treeCdfRf mems maxDepth a = none ∧
    treeImportance sort mems maxDepth cols m classifier a C pi minimal stop half = none ∧
    treeSufficient sort mems maxDepth cols m classifier a C pi minimal = none := by
  unfold treeSdpRf treeExpRf treeCdfRf treeImportance treeSufficient rfLoop
  rw [ht]
  simp [TArg.matrix, TArg.vector]

/-- The documented claim: with valid samples and a number `t`, `ACVTree.compute_sdp_rf` answers. -/
def C94_claim : Prop :=
  ∀ (mems : List Mem) (maxDepth : Nat) (classifier : Bool) (a : AcxArgs) (v : ℚ), a.Valid → a.t = .scalar v →
    (treeSdpRf mems maxDepth classifier a).isSome

theorem ddpArgs_valid (t : TArg) : (ddpArgs t).Valid := ⟨by simp [ddpArgs], rfl, rfl, by simp [ddpArgs], rfl⟩

theorem C94_number_false : ¬ C94_claim := by
  intro h
  have h1 := h ddpMems 3 true (ddpArgs (.scalar 20)) 20 (ddpArgs_valid _) rfl
  rw [(C94_number_raises (fun _ l => l) ddpMems 3 3 ⟨none, []⟩ true (a := ddpArgs (.scalar 20)) rfl [[]] 1 1 true 2).1] at h1
  simp at h1

/-! ## Intervals -/

/-- **C94, which calls answer** (a part: the documented number is missing, `C94_number_raises`). `compute_sdp_rf` and `compute_exp_rf` of `ACVTree`
answer exactly for valid arguments with a matrix `t` of at least one row per sample. -/
theorem C94_answers_partial (mems : List Mem) (maxDepth : Nat) (classifier : Bool) (a : AcxArgs) :
    ((treeSdpRf mems maxDepth classifier a).isSome = true ↔ a.Valid ∧ ∃ l, a.t = .rows l ∧ a.X.length ≤ l.length) ∧
    ((treeExpRf mems maxDepth a).isSome = true ↔ a.Valid ∧ ∃ l, a.t = .rows l ∧ a.X.length ≤ l.length) := by
  have key : (∃ l, a.t.matrix = some l ∧ a.X.length ≤ l.length) ↔ ∃ l, a.t = .rows l ∧ a.X.length ≤ l.length := by
    cases a.t <;> simp [TArg.matrix]
  unfold treeSdpRf treeExpRf
  rw [rfLoop_isSome, rfLoop_isSome, key]
  exact ⟨Iff.rfl, Iff.rfl⟩

/-- **C94, the SDP.** When `ACVTree.compute_sdp_rf` answers, entry `i` is the mean over the trees of the frequency of the background rows with
the output of sample `i` (classifier), or with an output in row `i` of `t` (regressor), in the projected cell of sample `i` given the columns
`S[i]`. -/
theorem C94_sdp {mems : List Mem} {maxDepth : Nat} {classifier : Bool} {a : AcxArgs} {l : List (ℚ × ℚ)} (ht : a.t = .rows l) {out : List ℚ}
    (h : treeSdpRf mems maxDepth classifier a = some out) :
    out = (List.range a.X.length).map fun i =>
      ((cellsSet mems (a.S.getD i []) (a.X.getD i 0) (fun j => a.data.getD j 0) a.minSize maxDepth a.data.length).map fun c =>
        ((c.filter fun j => if classifier then decide (a.yData.getD j 0 = a.y.getD i 0) else
          decide ((l.getD i (0, 0)).1 ≤ a.yData.getD j 0 ∧ a.yData.getD j 0 ≤ (l.getD i (0, 0)).2)).length : ℚ) / c.length).sum / mems.length := by
  obtain ⟨l', e1, e2⟩ := rfLoop_some h
  rw [ht] at e1
  simp only [TArg.matrix, Option.some.injEq] at e1
  subst e1
  rw [e2]
  apply List.map_congr_left
  intro i _
  have hm := C21_is_mean_frequency mems (a.S.getD i []) (a.X.getD i 0) (a.y.getD i 0) (fun j => a.data.getD j 0)
    (fun j => a.yData.getD j 0) a.minSize maxDepth a.data.length (l.getD i (0, 0))
  cases classifier with
  | true => simpa using hm.1
  | false => simpa using hm.2.2.1

/-- **C94, agreement with `ACXplainer`.** For the same forest, a matrix `t` with a row per sample and any other arguments, `ACVTree` and `ACXplainer`
return the same SDPs and the same expectations; a classifier ignores the matrix. -/
theorem C94_agree (mems : List Mem) (maxDepth : Nat) (classifier : Bool) (quant : Row → ℚ × ℚ) {a : AcxArgs} {l : List (ℚ × ℚ)}
    (ht : a.t = .rows l) (hl : a.X.length ≤ l.length) :
    treeSdpRf mems maxDepth classifier a = acxSdpRf mems maxDepth classifier quant a ∧
    treeExpRf mems maxDepth a = acxExpRf mems maxDepth classifier quant a := by
  unfold treeSdpRf treeExpRf acxSdpRf acxExpRf rfLoop acxLoop acxT
  rw [ht]
  by_cases hc : a.checked = true
  · cases classifier with
    | true => simp [TArg.matrix, hc, not_lt.2 hl, sdpRf, sameDec]
    | false => simp [TArg.matrix, hc, not_lt.2 hl]
  · simp [hc]

example : treeSdpRf ddpMems 3 true (ddpArgs (.rows [(0, 0), (1, 1)])) = some [3 / 16, 0] ∧
    treeSdpRf ddpMems 3 false (ddpArgs (.rows [(0, 0), (1, 1)])) = some [13 / 16, 1] ∧
    treeExpRf ddpMems 3 (ddpArgs (.rows [(0, 0), (1, 1)])) = some [3 / 16, 1] := by decide +kernel

/-- **C94, the probabilities of `ACXplainer`.** For valid arguments, a classifier always answers, a regressor without `t` (the intervals `iv` are the
quantiles of the model) or with a matrix `t` of a row per sample (the intervals are its rows). Entry `i` of `compute_ddp_rf` is the mean over the
trees of the frequency of the background rows with another output than sample `i` (classifier), or with an output outside interval `i`
(regressor), in the projected cell of the sample; `compute_sdp_rf` counts the other rows. -/
theorem C94_acx (mems : List Mem) (maxDepth : Nat) (classifier : Bool) (quant : Row → ℚ × ℚ) {a : AcxArgs} (hv : a.Valid) (iv : Nat → ℚ × ℚ)
    (ht : classifier = true ∨ (a.t = .none ∧ ∀ i, iv i = quant (a.X.getD i 0)) ∨
      ∃ l, a.t = .rows l ∧ a.X.length ≤ l.length ∧ ∀ i, iv i = l.getD i (0, 0)) :
    let mean := fun (i : Nat) (P : Nat → Bool) =>
      ((cellsSet mems (a.S.getD i []) (a.X.getD i 0) (fun j => a.data.getD j 0) a.minSize maxDepth a.data.length).map fun c =>
        ((c.filter P).length : ℚ) / c.length).sum / mems.length
    let other := fun (i j : Nat) => if classifier then decide (a.yData.getD j 0 ≠ a.y.getD i 0) else
      decide (a.yData.getD j 0 < (iv i).1 ∨ (iv i).2 < a.yData.getD j 0)
    acxDdpRf mems maxDepth classifier quant a = some ((List.range a.X.length).map fun i => mean i (other i)) ∧
    acxSdpRf mems maxDepth classifier quant a = some ((List.range a.X.length).map fun i => mean i fun j => !other i j) := by
  intro mean other
  have hc := (checked_iff a).2 hv
  obtain ⟨l, hl, hle, hiv⟩ : ∃ l, acxT classifier quant a = some l ∧ a.X.length ≤ l.length ∧
      (classifier = false → ∀ i < a.X.length, iv i = l.getD i (0, 0)) := by
    cases classifier with
    | true => exact ⟨a.X.map fun _ => (0, 0), by simp [acxT], by simp, by simp⟩
    | false =>
      rcases ht with h | ⟨h, hq⟩ | ⟨l, h, hle, hq⟩
      · cases h
      · refine ⟨a.X.map quant, by simp [acxT, h], by simp, fun _ i hi => ?_⟩
        rw [hq]
        simp [List.getD_eq_getElem?_getD, List.getElem?_eq_getElem hi]
      · exact ⟨l, by simp [acxT, h], hle, fun _ i _ => hq i⟩
  unfold acxDdpRf acxSdpRf acxLoop
  rw [if_pos hc, hl]
  simp only [Option.bind_some, if_neg (not_lt.2 hle), Option.some.injEq, if_pos hc]
  constructor
  · apply List.map_congr_left
    intro i hi
    have hm := C21_is_mean_frequency mems (a.S.getD i []) (a.X.getD i 0) (a.y.getD i 0) (fun j => a.data.getD j 0)
      (fun j => a.yData.getD j 0) a.minSize maxDepth a.data.length (l.getD i (0, 0))
    cases classifier with
    | true => simpa [mean, other] using hm.2.1
    | false =>
      have := hiv rfl i (List.mem_range.1 hi)
      simpa [mean, other, this] using hm.2.2.2
  · apply List.map_congr_left
    intro i hi
    have hm := C21_is_mean_frequency mems (a.S.getD i []) (a.X.getD i 0) (a.y.getD i 0) (fun j => a.data.getD j 0)
      (fun j => a.yData.getD j 0) a.minSize maxDepth a.data.length (l.getD i (0, 0))
    cases classifier with
    | true => simpa [mean, other] using hm.1
    | false =>
      have := hiv rfl i (List.mem_range.1 hi)
      simpa [mean, other, this, ← decide_not] using hm.2.2.1

example : acxDdpRf ddpMems 3 true (fun _ => (0, 0)) (ddpArgs .none) = some [13 / 16, 1] ∧
    acxSdpRf ddpMems 3 true (fun _ => (0, 0)) (ddpArgs .none) = some [3 / 16, 0] := by decide +kernel

/-! ## The distribution function -/

/-- **C94, the CDF.** `compute_cdf_rf` of `ACVTree` answers exactly for valid arguments and a vector `t` with an entry per sample, that of `ACXplainer`
only if moreover the explainer is a regressor; then both return the estimated CDF of sample `i` at `t[i]`: the mean over the trees of the
frequency of the background rows of the cell with output at most `t[i]`. -/
theorem C94_cdf_partial (mems : List Mem) (maxDepth : Nat) (classifier : Bool) (quant : Row → ℚ × ℚ) (a : AcxArgs) :
    ((treeCdfRf mems maxDepth a).isSome = true ↔ a.Valid ∧ ∃ l, a.t = .vec l ∧ a.X.length ≤ l.length) ∧
    ((acxCdfRf mems maxDepth classifier quant a).isSome = true ↔
      classifier = false ∧ a.Valid ∧ ∃ l, a.t = .vec l ∧ a.X.length ≤ l.length) ∧
    (∀ out, acxCdfRf mems maxDepth classifier quant a = some out → treeCdfRf mems maxDepth a = some out) ∧
    (∀ out l, treeCdfRf mems maxDepth a = some out → a.t = .vec l →
      out = (List.range a.X.length).map fun i =>
        ((cellsVec mems (a.S.getD i []) (a.X.getD i 0) (fun j => a.data.getD j 0) a.minSize maxDepth a.data.length).map fun c =>
          ((c.filter fun j => decide (a.yData.getD j 0 ≤ l.getD i 0)).length : ℚ) / c.length).sum / mems.length) := by
  have key : (∃ l, a.t.vector = some l ∧ a.X.length ≤ l.length) ↔ ∃ l, a.t = .vec l ∧ a.X.length ≤ l.length := by
    cases a.t <;> simp [TArg.vector]
  refine ⟨?_, ?_, ?_, ?_⟩
  · unfold treeCdfRf
    rw [rfLoop_isSome, key]
  · unfold acxCdfRf
    rw [rfLoop_isSome]
    cases classifier with
    | true => simp [TArg.vector]
    | false =>
      rw [← key]
      cases h : a.t <;> simp [TArg.vector]
  · intro out h
    unfold acxCdfRf at h
    unfold treeCdfRf
    cases classifier with
    | true =>
      obtain ⟨l, e, _⟩ := rfLoop_some h
      simp [TArg.vector] at e
    | false =>
      cases ht : a.t with
      | none =>
        rw [ht] at h
        obtain ⟨l, e, _⟩ := rfLoop_some h
        simp [TArg.vector] at e
      | scalar v => rw [ht] at h; simpa using h
      | vec l => rw [ht] at h; simpa using h
      | rows l => rw [ht] at h; simpa using h
  · intro out l h ht
    obtain ⟨l', e1, e2⟩ := rfLoop_some h
    rw [ht] at e1
    simp only [TArg.vector, Option.some.injEq] at e1
    subst e1
    rw [e2]
    apply List.map_congr_left
    intro i _
    unfold cdfRf
    have hlen : ((cellsVec mems (a.S.getD i []) (a.X.getD i 0) (fun j => a.data.getD j 0) a.minSize maxDepth a.data.length).length : ℚ)
        = mems.length := by
      unfold cellsVec; rw [forestRun_length]
    rw [← hlen, ← cellSum_freq]
    refine cellSum_congr fun c _ j _ => ?_
    simp [ind]

example : treeCdfRf ddpMems 3 (ddpArgs (.vec [0, 1])) = some [13 / 16, 1] ∧
    acxCdfRf ddpMems 3 false (fun _ => (0, 0)) (ddpArgs (.vec [0, 1])) = some [13 / 16, 1] := by decide +kernel

/-- The claim of the docstring (acv_agnosticX.py:1265-1290), where `t` is "not used": an explainer answers for valid samples without `t`. -/
def C94_cdf_claim : Prop :=
  ∀ (mems : List Mem) (maxDepth : Nat) (classifier : Bool) (quant : Row → ℚ × ℚ) (a : AcxArgs), a.Valid → a.t = .none →
    (acxCdfRf mems maxDepth classifier quant a).isSome

/-- **C94's claim on the CDF is false of the code**: without `t` no explainer answers, and a classifier never answers. -/
theorem C94_cdf_raises (mems : List Mem) (maxDepth : Nat) (classifier : Bool) (quant : Row → ℚ × ℚ) (a : AcxArgs)
    (h : classifier = true ∨ a.t = .none) : acxCdfRf mems maxDepth classifier quant a = none := by
  rw [← Option.not_isSome_iff_eq_none, (C94_cdf_partial mems maxDepth classifier quant a).2.1]
  rintro ⟨h1, _, l, h2, _⟩
  rcases h with h | h
  · rw [h1] at h; cases h
  · rw [h2] at h; cases h

theorem C94_cdf_false : ¬ C94_cdf_claim := by
  intro h
  have h1 := h ddpMems 3 true (fun _ => (0, 0)) (ddpArgs .none) (ddpArgs_valid _) rfl
  rw [C94_cdf_raises _ _ _ _ _ (Or.inl rfl)] at h1
  simp at h1

/-! ## Quantiles -/

/-- **C94, quantiles.** `compute_quantile_rf` of `ACVTree` answers for every number `t`, in particular for the default, and the number does not matter;
it raises for any other `t`. -/
theorem C94_quantile (mems : List Mem) (maxDepth : Nat) (q : ℚ) {a : AcxArgs} (hv : a.Valid) :
    (∀ v, a.t = .scalar v → treeQuantileRf mems maxDepth q a = some ((List.range a.X.length).map fun i =>
      quantileRf mems (a.S.getD i []) (a.X.getD i 0) (fun j => a.data.getD j 0) (fun j => a.yData.getD j 0) a.minSize maxDepth
        a.data.length q)) ∧
    ((∀ v, a.t ≠ .scalar v) → treeQuantileRf mems maxDepth q a = none) := by
  obtain ⟨_, _, h3, _, h5⟩ := hv
  unfold treeQuantileRf
  constructor
  · intro v hv
    rw [hv]
    simp [TArg.number, h3, h5]
  · intro h
    cases ht : a.t with
    | scalar v => exact absurd ht (h v)
    | none => rfl
    | vec l => rfl
    | rows l => rfl

/-! ## The columns to search -/

/-- `sort key l` is `l` in decreasing order of `key`. -/
def SortsDesc (sort : (Nat → ℚ) → List Nat → List Nat) : Prop :=
  ∀ key l, (sort key l).Perm l ∧ (sort key l).Pairwise fun i j => key j ≤ key i

/-- `space` consists of at most `n` of the columns `all`, each once, and no column left out has a larger key than a column of `space`; a
column is left out only if `space` is full. -/
def TopColumns (n : Nat) (key : Nat → ℚ) (all space : List Nat) : Prop :=
  space.Nodup ∧ space.length ≤ n ∧ space ⊆ all ∧
    ∀ c ∈ all, c ∉ space → space.length = n ∧ ∀ d ∈ space, key c ≤ key d

theorem topColumns_take {sort : (Nat → ℚ) → List Nat → List Nat} (hs : SortsDesc sort) (n : Nat) (key : Nat → ℚ) {all : List Nat}
    (hall : all.Nodup) : TopColumns n key all ((sort key all).take n) := by
  obtain ⟨hp, hd⟩ := hs key all
  refine ⟨(hp.nodup_iff.2 hall).sublist (List.take_sublist _ _), by rw [List.length_take]; omega,
    fun c hc => hp.subset ((List.take_sublist _ _).subset hc), ?_⟩
  intro c hc hnot
  have hcs := hp.symm.subset hc
  rw [← List.take_append_drop n (sort key all)] at hcs hd
  rcases List.mem_append.1 hcs with h | h
  · exact absurd h hnot
  · refine ⟨?_, fun d hd' => (List.pairwise_append.1 hd).2.2 d hd' c h⟩
    have : 0 < ((sort key all).drop n).length := List.length_pos_of_mem h
    rw [List.length_drop] at this
    rw [List.length_take]
    omega

/-- **C94, the columns searched.** With at most ten columns all are searched. With more columns, the searched ones are the ten most important
ones for the model (`ACVTree`), or the ten columns used by most leaves (`ACVTreeAgnostic`, and `ACVTree.sufficient_expl_rf` without
importances). -/
theorem C94_columns {sort : (Nat → ℚ) → List Nat → List Nat} (hs : SortsDesc sort) (cols : Nat) (m : TreeAttrs) :
    (cols ≤ 10 → importanceSpace sort cols m = some (List.range cols) ∧ sufficientSpace sort cols m = List.range cols ∧
      agnosticSpace sort cols m = List.range cols) ∧
    (10 < cols →
      (∀ w, m.importances = some w → importanceSpace sort cols m = some (sufficientSpace sort cols m) ∧
        TopColumns 10 (fun c => w.getD c 0) (List.range w.length) (sufficientSpace sort cols m)) ∧
      (m.importances = none → sufficientSpace sort cols m = agnosticSpace sort cols m) ∧
      TopColumns 10 (fun c => (((m.leafVars.map fun leaves => (leaves.map fun vars => vars.count c).sum).sum : Nat) : ℚ))
        m.leafVars.flatten.flatten.dedup (agnosticSpace sort cols m)) := by
  constructor
  · intro h
    have hr : (List.range cols).take 10 = List.range cols := List.take_of_length_le (by simpa using h)
    have hn : ¬ cols > 10 := by omega
    simp [importanceSpace, sufficientSpace, agnosticSpace, hn, hr]
  · intro h
    have hc : cols > 10 := h
    refine ⟨fun w hw => ⟨by simp [importanceSpace, sufficientSpace, hc, hw], ?_⟩, fun hn => by simp [sufficientSpace, agnosticSpace, hc, hn], ?_⟩
    · have : sufficientSpace sort cols m = (byImportance sort w).take 10 := by simp [sufficientSpace, hc, hw]
      rw [this]
      exact topColumns_take hs 10 _ List.nodup_range
    · have e : agnosticSpace sort cols m = (m.byUse sort).take 10 := by simp [agnosticSpace, hc]
      rw [e]
      have hk : (fun c => (((m.leafVars.map fun leaves => (leaves.map fun vars => vars.count c).sum).sum : Nat) : ℚ)) = fun c => (m.flat.count c : ℚ) := by
        funext c
        congr 1
        unfold TreeAttrs.flat
        rw [List.count_flatten, List.map_flatten, List.sum_flatten, List.map_map]
        rfl
      have := topColumns_take hs 10 (fun c => (m.flat.count c : ℚ)) (all := m.flat.dedup) (List.nodup_dedup _)
      unfold TreeAttrs.byUse
      rw [← hk] at this ⊢
      exact this

/-- The columns of the search fit the data: importances for every column, leaves with columns of the data, disjoint groups of columns. -/
def FitsData (cols : Nat) (m : TreeAttrs) (C : List (List Nat)) : Prop :=
  (∀ w, m.importances = some w → w.length = cols) ∧ (∀ c ∈ m.leafVars.flatten.flatten, c < cols) ∧ C.flatten.Nodup ∧ ∀ c ∈ C.flatten, c < cols

theorem sufficientSpace_args {sort : (Nat → ℚ) → List Nat → List Nat} (hs : SortsDesc sort) {cols : Nat} {m : TreeAttrs} {C : List (List Nat)}
    (h : FitsData cols m C) : ∃ order, sufficientSpace sort cols m = rfSpace cols order ∧ SearchArgs cols C (rfSpace cols order) := by
  obtain ⟨h1, h2, h3, h4⟩ := h
  by_cases hc : cols > 10
  · have key : ∀ key all, all.Nodup → (∀ c ∈ all, c < cols) → SearchArgs cols C (rfSpace cols (sort key all)) := by
      intro key all hn hl
      have := topColumns_take hs 10 key hn
      unfold rfSpace
      rw [if_pos hc]
      exact ⟨this.1, fun c hc => hl c (this.2.2.1 hc), h3, h4⟩
    cases hi : m.importances with
    | some w =>
      refine ⟨byImportance sort w, by simp [sufficientSpace, rfSpace, hc, hi], key _ _ List.nodup_range ?_⟩
      intro c hc'
      rw [← h1 w hi]
      exact List.mem_range.1 hc'
    | none =>
      refine ⟨m.byUse sort, by simp [sufficientSpace, rfSpace, hc, hi], key _ _ (List.nodup_dedup _) ?_⟩
      intro c hc'
      exact h2 c (List.mem_dedup.1 hc')
  · refine ⟨[], by simp [sufficientSpace, rfSpace, hc], ?_⟩
    unfold rfSpace
    rw [if_neg hc]
    have e : (List.range cols).take 10 = List.range cols := List.take_of_length_le (by simp; omega)
    rw [e]
    exact ⟨List.nodup_range, fun c hc => List.mem_range.1 hc, h3, h4⟩

/-- **C94, minimal sufficient explanations** (a part: a matrix `t`; with more than ten columns a model with importances). With a row of `t`
per sample, `ACVTree.importance_sdp_rf` answers; a sample reported with a probability of at least `pi` has a report in the sense of C29 over
the searched columns, with the SDP of the projected forest of the sample. -/
theorem C94_importance_partial {sort : (Nat → ℚ) → List Nat → List Nat} (hs : SortsDesc sort) (mems : List Mem) (maxDepth : Nat) {cols : Nat}
    {m : TreeAttrs} {C : List (List Nat)} (hfit : FitsData cols m C) (himp : cols ≤ 10 ∨ m.importances.isSome) (classifier : Bool) {a : AcxArgs}
    (hv : a.X ≠ [] ∧ a.y.length = a.X.length ∧ a.data ≠ [] ∧ a.yData.length = a.data.length) {l : List (ℚ × ℚ)} (ht : a.t = .rows l)
    (hl : l.length = a.X.length) {pi : ℚ} (h0 : 0 < pi) (h1 : pi ≤ 1) (minimal : Nat) (stop : Bool) (half : Nat) :
    ∃ st, treeImportance sort mems maxDepth cols m classifier a C pi minimal stop half = some st ∧
      ∀ i < a.X.length, pi ≤ (st.best i).sdp →
        Reports (searchPlayers C (sufficientSpace sort cols m)) cols minimal (fun S => sdpRf mems S (a.X.getD i 0) (a.y.getD i 0)
          (fun j => a.data.getD j 0) (fun j => a.yData.getD j 0) a.minSize maxDepth a.data.length classifier (l.getD i (0, 0))) pi (st.best i) := by
  obtain ⟨order, e1, e2⟩ := sufficientSpace_args hs hfit
  obtain ⟨st, e3, e4⟩ := C29_reported_partial e2 (a.sdpOf mems maxDepth classifier l) a.X.length h0 h1 minimal stop half
  have hsp : importanceSpace sort cols m = some (sufficientSpace sort cols m) := by
    rcases Nat.lt_or_ge 10 cols with hc | hc
    · rcases himp with h | h
      · omega
      · obtain ⟨w, hw⟩ := Option.isSome_iff_exists.1 h
        exact (((C94_columns hs cols m).2 hc).1 w hw).1
    · have := (C94_columns hs cols m).1 hc
      rw [this.1, this.2.1]
  refine ⟨st, ?_, fun i hi hpi => ?_⟩
  · unfold treeImportance
    rw [if_pos ((checkedXy_iff a).2 hv), hsp, ht]
    simp only [TArg.matrix, Option.bind_some]
    rw [if_pos hl, e1]
    exact e3
  · rw [e1]
    exact e4 i hi hpi

/-- **C94, all sufficient explanations** (a part: a matrix `t`). With a row of `t` per sample, `ACVTree.sufficient_expl_rf` answers, for every model;
the sets of sample `i` are the minimal sufficient sets over the searched columns (C32) with their SDP. -/
theorem C94_sufficient_partial {sort : (Nat → ℚ) → List Nat → List Nat} (hs : SortsDesc sort) (mems : List Mem) (maxDepth : Nat) {cols : Nat}
    {m : TreeAttrs} {C : List (List Nat)} (hfit : FitsData cols m C) (classifier : Bool) {a : AcxArgs}
    (hv : a.X ≠ [] ∧ a.y.length = a.X.length ∧ a.data ≠ [] ∧ a.yData.length = a.data.length) {l : List (ℚ × ℚ)} (ht : a.t = .rows l)
    (hl : a.X.length ≤ l.length) (pi : ℚ) (minimal : Nat) :
    ∃ out, treeSufficient sort mems maxDepth cols m classifier a C pi minimal = some out ∧ out.length = a.X.length ∧
      ∀ i (hi : i < out.length),
        let v := fun S => sdpRf mems S (a.X.getD i 0) (a.y.getD i 0) (fun j => a.data.getD j 0) (fun j => a.yData.getD j 0) a.minSize maxDepth
          a.data.length classifier (l.getD i (0, 0))
        ∃ L : List (List Nat), out[i] = L.map (fun S => (S.map (↑), v S)) ∧ L.Nodup ∧
          ∀ S, S ∈ L ↔ MinimalSufficient (searchPlayers C (sufficientSpace sort cols m)) minimal v pi S := by
  obtain ⟨order, e1, e2⟩ := sufficientSpace_args hs hfit
  have hlev : ∃ levels, levelsRf (searchPlayers C (rfSpace cols order)) minimal = some levels := by
    obtain ⟨L, e, _⟩ := C32_all_sufficient e2 (fun _ => 0) pi minimal
    unfold sufficientExpl at e
    change (levelsRf (searchPlayers C (rfSpace cols order)) minimal).map _ = _ at e
    cases h : levelsRf (searchPlayers C (rfSpace cols order)) minimal with
    | none => rw [h] at e; simp at e
    | some levels => exact ⟨levels, rfl⟩
  obtain ⟨levels, hlev⟩ := hlev
  refine ⟨(List.range a.X.length).map fun i => (suffScan (a.sdpOf mems maxDepth classifier l i) pi levels).drop 1, ?_, by simp, ?_⟩
  · unfold treeSufficient
    rw [if_pos ((checkedXy_iff a).2 hv), ht]
    simp only [TArg.matrix, Option.bind_some]
    rw [if_neg (not_lt.2 hl), e1, hlev]
    rfl
  · intro i hi v
    obtain ⟨L, e, h2, h3, _⟩ := C32_all_sufficient e2 v pi minimal
    unfold sufficientExpl at e
    change (levelsRf (searchPlayers C (rfSpace cols order)) minimal).map _ = _ at e
    rw [hlev] at e
    simp only [Option.map_some, Option.some.injEq] at e
    refine ⟨L, ?_, h2, by rw [e1]; exact h3⟩
    rw [← e]
    simp only [List.getElem_map, List.getElem_range]
    rfl

/-- **C94, many columns.** With more than ten columns and a model without importances, `ACVTree.importance_sdp_rf` raises whatever the other
arguments are, although `sufficient_expl_rf` answers (`C94_sufficient_partial`). -/
theorem C94_wide_raises (sort : (Nat → ℚ) → List Nat → List Nat) (mems : List Mem) (maxDepth : Nat) {cols : Nat} {m : TreeAttrs}
    (hc : 10 < cols) (hm : m.importances = none) (classifier : Bool) (a : AcxArgs) (C : List (List Nat)) (pi : ℚ) (minimal : Nat)
    (stop : Bool) (half : Nat) : treeImportance sort mems maxDepth cols m classifier a C pi minimal stop half = none := by
  unfold treeImportance importanceSpace
  rw [if_pos (show cols > 10 from hc), hm]
  simp

/-- Insertion sort orders the columns. -/
def insertDesc (key : Nat → ℚ) (l : List Nat) : List Nat := l.insertionSort fun i j => key j ≤ key i

theorem insertDesc_sorts : SortsDesc insertDesc := by
  intro key l
  refine ⟨List.perm_insertionSort _ _, ?_⟩
  have : Std.Total fun i j : Nat => key j ≤ key i := ⟨fun a b => le_total _ _⟩
  have : IsTrans Nat fun i j : Nat => key j ≤ key i := ⟨fun a b c h1 h2 => le_trans h2 h1⟩
  exact List.pairwise_insertionSort _ _

/-- Twelve columns; the leaves of two trees use the columns 11, 3 and 7, column 7 most often. -/
def wideAttrs : TreeAttrs := ⟨none, [[[7], [11, 7]], [[3, 7], [3]]]⟩

example : FitsData 12 wideAttrs [[]] ∧ agnosticSpace insertDesc 12 wideAttrs = [7, 3, 11] ∧
    sufficientSpace insertDesc 12 { wideAttrs with importances := some [5, 0, 1, 2, 3, 4, 5, 6, 7, 8, 9, 10] } = [11, 10, 9, 8, 7, 0, 6, 5, 4, 3] := by
  refine ⟨⟨by simp [wideAttrs], by decide, by decide, by decide⟩, by decide +kernel, by decide +kernel⟩

example : ∃ st, treeImportance insertDesc ddpMems 3 3 ⟨none, []⟩ true (ddpArgs (.rows [(0, 0), (1, 1)])) [[]] (1 / 5) 1 true 2 = some st :=
  have h := ddpArgs_valid (.rows [(0, 0), (1, 1)])
  (C94_importance_partial insertDesc_sorts ddpMems 3 (cols := 3) (m := ⟨none, []⟩) (C := [[]]) ⟨by simp, by simp, by simp, by simp⟩ (Or.inl (by decide))
    true (a := ddpArgs (.rows [(0, 0), (1, 1)])) ⟨h.1, h.2.1, h.2.2.2.1, h.2.2.2.2⟩ rfl rfl (by norm_num) (by norm_num) 1 true 2).imp fun _ h => h.1

example : ((treeImportance insertDesc ddpMems 3 3 ⟨none, []⟩ true (ddpArgs (.rows [(0, 0), (1, 1)])) [[]] (1 / 5) 1 true 2).map fun st =>
    [(st.best 0).sdp, (st.best 1).sdp]) = some [2 / 5, 3 / 5] := by decide +kernel

end Acv
