import Verif.Model.Display
import Verif.Props.Counterfactual
import Verif.Props.Cdp
import Verif.Props.Projected
import Mathlib.Tactic.Linarith
import Mathlib.Tactic.NormNum
import Mathlib.Tactic.Ring
import Mathlib.Tactic.FieldSimp

/-!
# C98: the rules shown describe the rules computed
-/

namespace Acv

/-! ## `print_rule` -/

/-- The condition of a printed line, for an observation given by its value on every named column. -/
def Shown.Met (val : String → ℚ) : Shown → Prop
  | .cond c lo hi => lo ≤ val c ∧ val c ≤ hi
  | _ => True

theorem condLines_none {names : List String} {r : Box} (h : r.length < names.length) : condLines names r = none := by
  induction names generalizing r with
  | nil => simp at h
  | cons c names ih =>
    cases r with
    | nil => rfl
    | cons p r => simp only [condLines, ih (by simpa using h), Option.map_none]

theorem condLines_some : ∀ {names : List String} {r : Box}, names.length ≤ r.length →
    ∃ l, condLines names r = some l ∧
      (∀ s ∈ l, ∃ c lo hi, s = .cond c lo hi) ∧
      (l.filterMap fun s => match s with | .cond c lo hi => some (c, (lo, hi)) | _ => none) =
        (names.zip r).filter (fun p => decide (¬ (p.2.1 ≤ -10000000000 ∧ 10000000000 ≤ p.2.2))) ∧
      ∀ val : String → ℚ, (∀ c ∈ names, -10000000000 ≤ val c ∧ val c ≤ 10000000000) →
        ((∀ s ∈ l, s.Met val) ↔ ∀ p ∈ names.zip r, p.2.1 ≤ val p.1 ∧ val p.1 ≤ p.2.2)
  | [], r, _ => ⟨[], rfl, by simp, by simp, by simp⟩
  | c :: names, [], h => by simp at h
  | c :: names, p :: r, h => by
    obtain ⟨l, hl, hc, hz, hv⟩ := condLines_some (names := names) (r := r) (by simpa using h)
    by_cases hp : p.1 ≤ -10000000000 ∧ p.2 ≥ 10000000000
    · refine ⟨l, by simp only [condLines, hl, Option.map_some, if_pos hp], hc, ?_, ?_⟩
      · rw [hz, List.zip_cons_cons, List.filter_cons, if_neg (by rw [decide_eq_true_eq]; exact not_not.2 hp)]
      · intro val hval
        rw [hv val fun c hc => hval c (by simp [hc]), List.zip_cons_cons]
        have h0 := hval c (by simp)
        constructor
        · intro hh q hq
          rcases List.mem_cons.1 hq with rfl | hq
          · exact ⟨hp.1.trans h0.1, h0.2.trans hp.2⟩
          · exact hh q hq
        · exact fun hh q hq => hh q (by simp [hq])
    · refine ⟨.cond c p.1 p.2 :: l, by simp only [condLines, hl, Option.map_some, if_neg hp], ?_, ?_, ?_⟩
      · intro s hs
        rcases List.mem_cons.1 hs with rfl | hs
        · exact ⟨_, _, _, rfl⟩
        · exact hc s hs
      · rw [List.filterMap_cons, hz, List.zip_cons_cons, List.filter_cons, if_pos (decide_eq_true hp)]
      · intro val hval
        rw [List.zip_cons_cons, List.forall_mem_cons, List.forall_mem_cons, hv val fun c hc => hval c (by simp [hc])]
        rfl

/-- What C98 asks of `print_rule`: with one name per column, whatever the rule, an observation meets all the printed conditions exactly
when it is in the rule. -/
def C98_print_claim : Prop :=
  ∀ (names : List String) (r : Box), names.Nodup → names.length = r.length → ∀ (decision : ℚ) (sdp : Bool) (output : Option ℚ),
    ∃ lines, printRule names r decision sdp output = some lines ∧
      ∀ val : String → ℚ, (∀ s ∈ lines, s.Met val) ↔ ∀ p ∈ names.zip r, p.2.1 ≤ val p.1 ∧ val p.1 ≤ p.2.2

/-- **C98, `print_rule` is false** of an observation beyond `1e10`: the rule `[-1e10, 1e10]` is printed without any condition. -/
theorem C98_print_false : ¬ C98_print_claim := by
  intro h
  obtain ⟨lines, hl, hv⟩ := h ["a"] [(-10000000000, 10000000000)] (by simp) rfl 1 true (some 0)
  have e : printRule ["a"] [(-10000000000, 10000000000)] 1 true (some 0) = some [.output true (some 0), .prob true 1] := by decide +kernel
  rw [e] at hl
  cases hl
  have := (hv fun _ => 20000000000).1 (by
    intro s hs
    simp only [List.mem_cons, List.not_mem_nil, or_false] at hs
    rcases hs with rfl | rfl <;> trivial) ("a", (-10000000000, 10000000000)) (by simp)
  norm_num at this

/-- **C98, `print_rule`, partial**: the call raises when there are more names than columns. Otherwise the conditions printed are, in the
order of the columns, those of the named columns whose interval does not contain `[-1e10, 1e10]`, with their own bounds; the output and the
probability printed are those given; and an observation whose values are within `[-1e10, 1e10]` meets the printed conditions exactly when
it meets the rule on the named columns. Missing (false): larger values. -/
theorem C98_print_partial (names : List String) (r : Box) (decision : ℚ) (sdp : Bool) (output : Option ℚ) :
    (r.length < names.length → printRule names r decision sdp output = none) ∧
    (names.length ≤ r.length → ∃ lines, printRule names r decision sdp output = some lines ∧
      (lines.filterMap fun s => match s with | .cond c lo hi => some (c, (lo, hi)) | _ => none) =
        (names.zip r).filter (fun p => decide (¬ (p.2.1 ≤ -10000000000 ∧ 10000000000 ≤ p.2.2))) ∧
      (∀ b v, .output b v ∈ lines ↔ b = sdp ∧ v = output) ∧
      (∀ b v, .prob b v ∈ lines ↔ b = sdp ∧ v = decision) ∧
      ∀ val : String → ℚ, (∀ c ∈ names, -10000000000 ≤ val c ∧ val c ≤ 10000000000) →
        ((∀ s ∈ lines, s.Met val) ↔ ∀ p ∈ names.zip r, p.2.1 ≤ val p.1 ∧ val p.1 ≤ p.2.2)) := by
  constructor
  · intro h
    rw [printRule, condLines_none h]
    rfl
  · intro h
    obtain ⟨l, hl, hc, hz, hv⟩ := condLines_some h
    refine ⟨l ++ [.output sdp output, .prob sdp decision], by rw [printRule, hl]; rfl, ?_, ?_, ?_, ?_⟩
    · rw [List.filterMap_append, hz]
      simp
    · intro b v
      rw [List.mem_append]
      constructor
      · rintro (hm | hm)
        · obtain ⟨_, _, _, e⟩ := hc _ hm
          cases e
        · simpa using hm
      · rintro ⟨rfl, rfl⟩
        right
        simp
    · intro b v
      rw [List.mem_append]
      constructor
      · rintro (hm | hm)
        · obtain ⟨_, _, _, e⟩ := hc _ hm
          cases e
        · simpa using hm
      · rintro ⟨rfl, rfl⟩
        right
        simp
    · intro val hval
      rw [← hv val hval]
      constructor
      · exact fun hh s hs => hh s (List.mem_append_left _ hs)
      · intro hh s hs
        rcases List.mem_append.1 hs with hs | hs
        · exact hh s hs
        · simp only [List.mem_cons, List.not_mem_nil, or_false] at hs
          rcases hs with rfl | rfl <;> trivial

example : printRule ["age", "sex", "bmi"] [(3, 7), (-10000000000, 10000000000), (-10000000000, 25)] (9/10) false (some 1) =
    some [.cond "age" 3 7, .cond "bmi" (-10000000000) 25, .output false (some 1), .prob false (9/10)] := by decide +kernel

/-! ## The counterfactuals shown -/

theorem mapM_some_get {α β : Type} {f : α → Option β} : ∀ {l : List α} {out : List β}, l.mapM f = some out →
    out.length = l.length ∧ ∀ i : Nat, out[i]? = (l[i]?).bind f
  | [], out, h => by
    rw [List.mapM_nil] at h
    cases h
    simp
  | a :: l, out, h => by
    rw [List.mapM_cons] at h
    rcases ha : f a with _ | b
    · rw [ha] at h; cases h
    · rw [ha] at h
      rcases hl : l.mapM f with _ | out'
      · rw [hl] at h; cases h
      · rw [hl] at h
        cases h
        obtain ⟨h1, h2⟩ := mapM_some_get hl
        refine ⟨by simp [h1], ?_⟩
        intro i
        cases i with
        | zero => simp [ha]
        | succ i => simpa using h2 i

theorem showCfs_get {classifier : Bool} {m N : Nat} {names : List String} {y : Nat → ℚ} {target : ℚ} {idt : Nat}
    {cfs : List (Rule × ℚ × (Nat → ℚ))} {out : List (Nat × Nat × List Shown)}
    (h : showCfs classifier m N names y target idt cfs = some out) :
    out.length = cfs.length ∧ ∀ (l : Nat) p, cfs[l]? = some p → ∃ lines, out[l]? = some (idt, l, lines) ∧
      printRule names (boxOf m p.1) p.2.1 false (if classifier then some target else shownOutput N y p.2.2) = some lines := by
  obtain ⟨h1, h2⟩ := mapM_some_get h
  refine ⟨by rw [h1, List.length_zipIdx], ?_⟩
  intro l p hp
  have h3 := h2 l
  have hlt : l < out.length := by
    rw [h1, List.length_zipIdx]
    exact (List.getElem?_eq_some_iff.1 hp).1
  rw [List.getElem?_zipIdx, hp, List.getElem?_eq_getElem hlt] at h3
  simp only [Option.map_some, Option.bind_some, Nat.zero_add] at h3
  cases hq : printRule names (boxOf m p.1) p.2.1 false (if classifier then some target else shownOutput N y p.2.2) with
  | none => rw [hq] at h3; cases h3
  | some lines =>
    rw [hq] at h3
    exact ⟨lines, by rw [List.getElem?_eq_getElem hlt, h3]; rfl, rfl⟩

/-- **C98, local counterfactuals.** When the call ends, every counterfactual of every example is shown once, under the number of its
example and its own number, with its own rule and probability; the output shown is the wanted class of that example, or for a regression
the mean output of the training rows of weight other than 0 of that counterfactual. -/
theorem C98_local {classifier : Bool} {m N : Nat} {names : List String} {y : Nat → ℚ} {targets : List ℚ}
    {cfs : List (List (Rule × ℚ × (Nat → ℚ)))} {out : List (List (Nat × Nat × List Shown))}
    (h : showLocal classifier m N names y targets cfs = some out) :
    out.length = cfs.length ∧ ∀ (i : Nat) c, cfs[i]? = some c → ∃ b, out[i]? = some b ∧ b.length = c.length ∧
      ∀ (l : Nat) p, c[l]? = some p → ∃ lines, b[l]? = some (i, l, lines) ∧
        (classifier = true → ∃ t, targets[i]? = some t ∧ printRule names (boxOf m p.1) p.2.1 false (some t) = some lines) ∧
        (classifier = false → printRule names (boxOf m p.1) p.2.1 false (shownOutput N y p.2.2) = some lines) := by
  obtain ⟨h1, h2⟩ := mapM_some_get h
  refine ⟨by rw [h1, List.length_zipIdx], ?_⟩
  intro i c hc
  have h3 := h2 i
  have hlt : i < out.length := by
    rw [h1, List.length_zipIdx]
    exact (List.getElem?_eq_some_iff.1 hc).1
  rw [List.getElem?_zipIdx, hc, List.getElem?_eq_getElem hlt] at h3
  simp only [Option.map_some, Option.bind_some, Nat.zero_add] at h3
  refine ⟨out[i], List.getElem?_eq_getElem hlt, ?_⟩
  cases classifier with
  | true =>
    rw [if_pos rfl] at h3
    cases ht : targets[i]? with
    | none => rw [ht] at h3; cases h3
    | some t =>
      rw [ht] at h3
      obtain ⟨g1, g2⟩ := showCfs_get h3.symm
      refine ⟨g1, fun l p hp => ?_⟩
      obtain ⟨lines, e1, e2⟩ := g2 l p hp
      exact ⟨lines, e1, fun _ => ⟨t, rfl, by simpa using e2⟩, fun hf => by cases hf⟩
  | false =>
    rw [if_neg (by decide)] at h3
    obtain ⟨g1, g2⟩ := showCfs_get h3.symm
    refine ⟨g1, fun l p hp => ?_⟩
    obtain ⟨lines, e1, e2⟩ := g2 l p hp
    exact ⟨lines, e1, ⟨fun hf => absurd hf (by decide), fun _ => by simpa using e2⟩⟩

example : showLocal false 2 2 ["a", "b"] (fun i => ([4, 6] : List ℚ).getD i 0) []
      [[], [(fun _ => (0, 1), 1/2, fun _ => 1), (fun s => if s = 0 then (2, 3) else (-10000000000, 10000000000), 1, fun i => i)]] =
    some [[], [(1, 0, [.cond "a" 0 1, .cond "b" 0 1, .output false (some 5), .prob false (1/2)]),
      (1, 1, [.cond "a" 2 3, .output false (some 6), .prob false 1])]] := by decide +kernel

/-- **C98, regional counterfactuals.** The same for `show_global_counterfactuals`; every sufficient rule is shown with its own
probability and output before its counterfactuals. -/
theorem C98_global {classifier : Bool} {m N : Nat} {names : List String} {y : Nat → ℚ} {targets : List ℚ}
    {rules : List ((Rule × ℚ × ℚ) × List (Rule × ℚ × (Nat → ℚ)))} {out : List (List Shown × List (Nat × Nat × List Shown))}
    (h : showGlobal classifier m N names y targets rules = some out) :
    out.length = rules.length ∧ ∀ (i : Nat) r c, rules[i]? = some (r, c) → ∃ head b, out[i]? = some (head, b) ∧
      printRule names (boxOf m r.1) r.2.1 true (some r.2.2) = some head ∧ b.length = c.length ∧
      ∀ (l : Nat) p, c[l]? = some p → ∃ lines, b[l]? = some (i, l, lines) ∧
        (classifier = true → ∃ t, targets[i]? = some t ∧ printRule names (boxOf m p.1) p.2.1 false (some t) = some lines) ∧
        (classifier = false → printRule names (boxOf m p.1) p.2.1 false (shownOutput N y p.2.2) = some lines) := by
  obtain ⟨h1, h2⟩ := mapM_some_get h
  refine ⟨by rw [h1, List.length_zipIdx], ?_⟩
  intro i r c hc
  have h3 := h2 i
  have hlt : i < out.length := by
    rw [h1, List.length_zipIdx]
    exact (List.getElem?_eq_some_iff.1 hc).1
  rw [List.getElem?_zipIdx, hc, List.getElem?_eq_getElem hlt] at h3
  simp only [Option.map_some, Option.bind_some, Nat.zero_add] at h3
  cases hq : printRule names (boxOf m r.1) r.2.1 true (some r.2.2) with
  | none => rw [hq] at h3; cases h3
  | some head =>
    rw [hq, Option.bind_some] at h3
    cases classifier with
    | true =>
      rw [if_pos rfl] at h3
      cases ht : targets[i]? with
      | none => rw [ht] at h3; cases h3
      | some t =>
        rw [ht, Option.bind_some] at h3
        cases hs : showCfs true m N names y t i c with
        | none => rw [hs] at h3; cases h3
        | some b =>
          rw [hs] at h3
          obtain ⟨g1, g2⟩ := showCfs_get hs
          refine ⟨head, b, by rw [List.getElem?_eq_getElem hlt, h3]; rfl, rfl, g1, fun l p hp => ?_⟩
          obtain ⟨lines, e1, e2⟩ := g2 l p hp
          exact ⟨lines, e1, fun _ => ⟨t, rfl, by simpa using e2⟩, fun hf => by cases hf⟩
    | false =>
      rw [if_neg (by decide)] at h3
      cases hs : showCfs false m N names y 0 i c with
      | none => rw [hs] at h3; cases h3
      | some b =>
        rw [hs] at h3
        obtain ⟨g1, g2⟩ := showCfs_get hs
        refine ⟨head, b, by rw [List.getElem?_eq_getElem hlt, h3]; rfl, rfl, g1, fun l p hp => ?_⟩
        obtain ⟨lines, e1, e2⟩ := g2 l p hp
        exact ⟨lines, e1, ⟨fun hf => absurd hf (by decide), fun _ => by simpa using e2⟩⟩

example : showGlobal true 1 2 ["a"] (fun i => i) [7] [((fun _ => (0, 1), 1, 3), [(fun _ => (2, 3), 1/2, fun _ => 1)])] =
    some [([.cond "a" 0 1, .output true (some 3), .prob true 1],
      [(0, 0, [.cond "a" 2 3, .output false (some 7), .prob false (1/2)])])] := by decide +kernel

/-! ## The output shown for a regression -/

theorem weightsOf_nonneg (cells : List (List Nat)) (i : Nat) : 0 ≤ weightsOf cells i := by
  apply List.sum_nonneg
  intro a ha
  obtain ⟨c, _, rfl⟩ := List.mem_map.1 ha
  positivity

theorem sum_le_of_zero_gap : ∀ (l : List Nat) (f g : Nat → ℚ), (∀ i ∈ l, f i ≤ g i) → (l.map g).sum ≤ (l.map f).sum → ∀ i ∈ l, f i = g i
  | [], _, _, _, _, i, hi => by simp at hi
  | a :: l, f, g, h, hs, i, hi => by
    simp only [List.map_cons, List.sum_cons] at hs
    have ha := h a (by simp)
    have hl : (l.map f).sum ≤ (l.map g).sum := List.sum_le_sum fun j hj => h j (by simp [hj])
    rcases List.mem_cons.1 hi with rfl | hi
    · linarith
    · exact sum_le_of_zero_gap l f g (fun j hj => h j (by simp [hj])) (by linarith) i hi

theorem mean_between {l : List ℚ} {a b v : ℚ} (h : ∀ q ∈ l, a ≤ q ∧ q ≤ b) (hv : npMean l = some v) : a ≤ v ∧ v ≤ b := by
  unfold npMean at hv
  by_cases hl : l = []
  · rw [if_pos hl] at hv; cases hv
  · rw [if_neg hl] at hv
    cases hv
    have hpos : (0 : ℚ) < l.length := by exact_mod_cast List.length_pos_iff.2 hl
    have h1 : (l.length : ℚ) * a ≤ l.sum := by
      have := List.card_nsmul_le_sum l a fun q hq => (h q hq).1
      simpa using this
    have h2 : l.sum ≤ (l.length : ℚ) * b := by
      have := List.sum_le_card_nsmul l b fun q hq => (h q hq).2
      simpa using this
    exact ⟨by rw [le_div_iff₀ hpos]; linarith, by rw [div_le_iff₀ hpos]; linarith⟩

theorem npMean_none {l : List ℚ} : npMean l = none ↔ l = [] := by
  unfold npMean
  split_ifs with h <;> simp [h]

/-- What C98 asks of the output shown for a regression: it is one of the wanted outputs, those between `down` and `up`. -/
def C98_output_claim : Prop :=
  ∀ (a : CfArgs) (ts : List TreeArr), List.Forall₂ (TreeStored a.m) ts a.mems → a.classifier = false →
  ∀ (sStar sBar : List Nat) (x : Row) (w : Nat → ℚ) (accLevel pi : ℚ) (o : Nat → AnnealDraws) (l : List (Rule × ℚ × (Nat → ℚ))),
    runLocal a sStar sBar x w accLevel pi o = .ok l → ∀ p ∈ l, ∃ v, shownOutput a.N a.y p.2.2 = some v ∧ a.down ≤ v ∧ v ≤ a.up

/-- **C98, output of a regression, is false**: outputs in `[1, 2]` are wanted, and the output shown is 3, the mean of 1 and 5. -/
theorem C98_output_false : ¬ C98_output_claim := by
  intro h
  have e : ((runLocal regArgs [0] [1] (fun _ => 0) (fun _ => 1) (1/4) 1 (fun _ => exploreDraws 1)).map fun l =>
      l.map fun p => shownOutput regArgs.N regArgs.y p.2.2) = .ok [some 3, some 3] := by decide +kernel
  cases hl : runLocal regArgs [0] [1] (fun _ => 0) (fun _ => 1) (1/4) 1 (fun _ => exploreDraws 1) with
  | error e' => rw [hl] at e; cases e
  | ok l =>
    rw [hl] at e
    have e' : (l.map fun p => shownOutput regArgs.N regArgs.y p.2.2) = [some 3, some 3] := Except.ok.inj e
    have hm : (some 3 : Option ℚ) ∈ l.map fun p => shownOutput regArgs.N regArgs.y p.2.2 := by rw [e']; simp
    obtain ⟨p, hp, he⟩ := List.mem_map.1 hm
    obtain ⟨v, hv, h1, h2⟩ := h regArgs [splitOn 0 1] (.cons (splitOn_stored (by decide) _) .nil) rfl _ _ _ _ _ _ _ l hl p hp
    rw [hv] at he
    cases he
    have : regArgs.up = 2 := rfl
    rw [this] at h2
    norm_num at h2

/-- **C98, output of a regression, partial**: the output shown for a counterfactual is undefined exactly when no training row has a weight,
and its probability is then 0; when the probability is 1 the output shown is one of the wanted outputs. Missing (false): a probability
below 1. -/
theorem C98_output_partial {a : CfArgs} (hreg : a.classifier = false) {sStar sBar : List Nat} {x : Row} {w : Nat → ℚ} {accLevel pi : ℚ}
    {o : Nat → AnnealDraws} {l : List (Rule × ℚ × (Nat → ℚ))} (h : runLocal a sStar sBar x w accLevel pi o = .ok l) :
    ∀ p ∈ l,
      (shownOutput a.N a.y p.2.2 = none ↔ ∀ i < a.N, p.2.2 i = 0) ∧
      (shownOutput a.N a.y p.2.2 = none → p.2.1 = 0) ∧
      (p.2.1 = 1 → ∃ v, shownOutput a.N a.y p.2.2 = some v ∧ a.down ≤ v ∧ v ≤ a.up) := by
  intro p hp
  unfold runLocal at h
  rw [hreg, if_neg (by decide)] at h
  have hc := ((C47_local h).1 p hp).1
  rw [hreg] at hc
  have hw : p.2.2 = weightsOf (cellsD a.mems (dirCond sBar x p.1) a.data a.minSize a.maxDepth a.N) := by rw [hc]; rfl
  have hf : p.2.1 = weightedFreq a.N p.2.2 (fun i => a.down ≤ a.y i ∧ a.y i ≤ a.up) := by
    rw [hc]
    exact (C48_cond a.mems sBar x p.1 a.target a.down a.up a.data a.y a.minSize a.maxDepth a.N).2
  have hsub : ∀ c ∈ cellsD a.mems (dirCond sBar x p.1) a.data a.minSize a.maxDepth a.N, c.Sublist (List.range a.N) :=
    fun c hc => cellsD_sublist hc
  have hn : shownOutput a.N a.y p.2.2 = none ↔ ∀ i < a.N, p.2.2 i = 0 := by
    unfold shownOutput
    rw [npMean_none, List.map_eq_nil_iff, List.filter_eq_nil_iff]
    simp
  refine ⟨hn, ?_, ?_⟩
  · intro h0
    rw [hf]
    unfold weightedFreq
    refine List.sum_eq_zero ?_
    intro q hq
    obtain ⟨i, hi, rfl⟩ := List.mem_map.1 hq
    rw [hn.1 h0 i (List.mem_range.1 hi), zero_mul]
  · intro h1
    have htot : ((List.range a.N).map p.2.2).sum ≤ 1 := by
      have e1 := cellSum_weights hsub (fun _ => 1)
      rw [cellSum_one] at e1
      have e2 := liveFrac_le_one (cellsD a.mems (dirCond sBar x p.1) a.data a.minSize a.maxDepth a.N)
      rw [e1] at e2
      rw [hw]
      simp only [mul_one] at e2
      exact e2
    have hall : ∀ i ∈ List.range a.N, (p.2.2 i * if a.down ≤ a.y i ∧ a.y i ≤ a.up then 1 else 0) = p.2.2 i := by
      apply sum_le_of_zero_gap _ (fun i => p.2.2 i * if a.down ≤ a.y i ∧ a.y i ≤ a.up then 1 else 0) p.2.2
      · intro i _
        have h0 : 0 ≤ p.2.2 i := by rw [hw]; exact weightsOf_nonneg _ _
        by_cases hy : a.down ≤ a.y i ∧ a.y i ≤ a.up
        · simp [hy]
        · simpa [hy] using h0
      · rw [hf] at h1
        unfold weightedFreq at h1
        rw [h1]
        exact htot
    cases hs : shownOutput a.N a.y p.2.2 with
    | none =>
      exfalso
      have hz : p.2.1 = 0 := by
        rw [hf]
        unfold weightedFreq
        refine List.sum_eq_zero ?_
        intro q hq
        obtain ⟨i, hi, rfl⟩ := List.mem_map.1 hq
        rw [hn.1 hs i (List.mem_range.1 hi), zero_mul]
      rw [h1] at hz
      norm_num at hz
    | some v =>
      refine ⟨v, rfl, mean_between ?_ hs⟩
      intro q hq
      obtain ⟨i, hi, rfl⟩ := List.mem_map.1 hq
      obtain ⟨hi1, hi2⟩ := List.mem_filter.1 hi
      have hne : p.2.2 i ≠ 0 := by simpa using hi2
      by_contra hy
      have := hall i hi1
      rw [if_neg hy, mul_zero] at this
      exact hne this.symm

example : ((runLocal { regArgs with up := 5 } [0] [1] (fun _ => 0) (fun _ => 1) (1/4) 1 (fun _ => exploreDraws 1)).map fun l =>
    l.map fun p => (p.2.1, shownOutput regArgs.N regArgs.y p.2.2)) = .ok [(1, some 3), (1, some 3)] := by decide +kernel

/-! ## The rule of the explanation page -/

/-- The displayed condition `lo <= column <= hi`. -/
def ShownBound.Met (b : ShownBound) (z : Row) : Prop := (∀ lo, b.lo = some lo → lo ≤ z b.col) ∧ ∀ hi, b.hi = some hi → z b.col ≤ hi

/-- The same condition with a strict lower bound, as the trees test it. -/
def ShownBound.StrictlyMet (b : ShownBound) (z : Row) : Prop :=
  (∀ lo, b.lo = some lo → lo < z b.col) ∧ ∀ hi, b.hi = some hi → z b.col ≤ hi

/-- The page names every column of the explanation once, in its order, and on values within `1e10` the conditions shown are those of the
rule on these columns. -/
theorem C98_page (S : List Nat) (rule : Rule) :
    (ruleString S rule).map (·.col) = S ∧
    ∀ z : Row, (∀ s ∈ S, -10000000000 ≤ z s ∧ z s ≤ 10000000000) →
      ((∀ s ∈ S, -10000000000 ≤ (rule s).1 ∧ (rule s).2 ≤ 10000000000) →
        ((∀ b ∈ ruleString S rule, b.Met z) ↔ ∀ s ∈ S, (rule s).1 ≤ z s ∧ z s ≤ (rule s).2)) := by
  constructor
  · simp [ruleString, Function.comp_def]
  · intro z hz hr
    simp only [ruleString, List.forall_mem_map, ShownBound.Met]
    refine forall_congr' fun s => forall_congr' fun hs => ?_
    have h1 := hz s hs
    have h2 := hr s hs
    constructor
    · rintro ⟨ha, hb⟩
      constructor
      · by_cases hc : (rule s).1 > -10000000000
        · exact ha _ (if_pos hc)
        · linarith [not_lt.1 hc]
      · by_cases hc : (rule s).2 < 10000000000
        · exact hb _ (if_pos hc)
        · linarith [not_lt.1 hc]
    · rintro ⟨ha, hb⟩
      constructor
      · intro lo hlo
        split_ifs at hlo
        cases hlo
        exact ha
      · intro hi hhi
        split_ifs at hhi
        cases hhi
        exact hb

/-- What C98 asks of the page: an observation that meets the conditions shown has the same decision probability as the one explained. -/
def C98_page_claim : Prop :=
  ∀ (ts : List TreeArr) (mems : List Mem) (S : List Nat) (m : Nat), List.Forall₂ (TreeIn S m) ts mems → (∀ s ∈ S, s < m) →
  ∀ (x z : Row) (yx : ℚ) (data : Nat → Row) (y : Nat → ℚ) (minSize maxDepth N : Nat) (classifier : Bool) (t : ℚ × ℚ),
    (∀ j < m, -10000000000 < x j ∧ x j ≤ 10000000000) → (∀ j < m, -10000000000 < z j ∧ z j ≤ 10000000000) →
    (∀ b ∈ ruleString S (sdpRule mems S x yx data y minSize maxDepth N classifier t).2, b.Met z) →
    sdpRf mems S z yx data y minSize maxDepth N classifier t = sdpRf mems S x yx data y minSize maxDepth N classifier t

/-- **C98, partial**: it does if it meets the conditions shown with every lower bound strict. Missing (false): an observation on a lower
bound, which the page shows as part of the rule. -/
theorem C98_page_partial (mems : List Mem) (S : List Nat) {x z : Row} (yx : ℚ) (data : Nat → Row) (y : Nat → ℚ)
    (minSize maxDepth N : Nat) (classifier : Bool) (t : ℚ × ℚ)
    (hz : ∀ j ∈ S, -10000000000 < z j ∧ z j ≤ 10000000000)
    (h : ∀ b ∈ ruleString S (sdpRule mems S x yx data y minSize maxDepth N classifier t).2, b.StrictlyMet z) :
    sdpRf mems S z yx data y minSize maxDepth N classifier t = sdpRf mems S x yx data y minSize maxDepth N classifier t := by
  have hin : InRuleS S (sdpRule mems S x yx data y minSize maxDepth N classifier t).2 z := by
    intro s hs
    have h1 := h _ (List.mem_map_of_mem hs)
    constructor
    · by_cases hc : ((sdpRule mems S x yx data y minSize maxDepth N classifier t).2 s).1 > -10000000000
      · exact h1.1 _ (if_pos hc)
      · exact lt_of_le_of_lt (not_lt.1 hc) (hz s hs).1
    · by_cases hc : ((sdpRule mems S x yx data y minSize maxDepth N classifier t).2 s).2 < 10000000000
      · exact h1.2 _ (if_pos hc)
      · exact (hz s hs).2.trans (not_lt.1 hc)
  have e := forestRun_same (z := z) (data := data) (minSize := minSize) (maxDepth := maxDepth) (N := N) mems Rule.init hin
  unfold sdpRf cellsSet
  rw [e]

example : ruleString [2, 0] (sdpRule [Mem.ofTree ladderTree leafJunk] [0, 2] (diag 4) 1 diag (fun _ => 0) 1 3 10 true (0, 0)).2 =
    [⟨none, 2, some 5⟩, ⟨some 1, 0, none⟩] := by decide +kernel

/-- **C98 is false of the page.** The rule of `x_0 = 4` is shown as `1 <= x_0`, and the observation `x_0 = 1` has another probability. -/
theorem C98_page_false : ¬ C98_page_claim := by
  intro h
  have hr : (sdpRule [Mem.ofTree rootSplit leafJunk] [0] (fun _ => 4) 1 diag (fun i => if i < 3 then 1 else 0) 1 3 10 true (0, 0)).2 0 =
      (1, 10000000000) := by decide +kernel
  have h1 := h [rootSplit] [Mem.ofTree rootSplit leafJunk] [0] 3 (.cons (rootSplit_in _) .nil) (by simp) (fun _ => 4) (fun _ => 1) 1 diag
    (fun i => if i < 3 then 1 else 0) 1 3 10 true (0, 0) (fun _ _ => by norm_num) (fun _ _ => by norm_num) (by
      intro b hb
      simp only [ruleString, List.map_cons, List.map_nil, List.mem_singleton, hr] at hb
      subst hb
      constructor
      · intro lo hlo
        norm_num at hlo
        rw [← hlo]
      · intro hi hhi
        norm_num at hhi
        cases hhi)
  revert h1
  decide +kernel

end Acv
