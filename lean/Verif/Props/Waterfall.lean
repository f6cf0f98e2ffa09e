import Verif.Model.Waterfall
import Verif.Props.Shapley
import Mathlib.Tactic.Linarith
import Mathlib.Tactic.NormNum
import Mathlib.Tactic.Ring
import Mathlib.Algebra.BigOperators.Group.List.Basic
import Mathlib.Data.List.Sort

/-!
# C99: the plot of Shapley values
-/

namespace Acv

/-- The arrows form a path: from top to bottom, each ends where the one above starts; the first ends at `hi`, the last starts at `lo`. -/
def Path : ℚ → List Bar → ℚ → Prop
  | hi, [], lo => hi = lo
  | hi, b :: bs, lo => b.left + b.width = hi ∧ Path b.left bs lo

theorem Path.append {hi mid lo : ℚ} {a b : List Bar} (h1 : Path hi a mid) (h2 : Path mid b lo) : Path hi (a ++ b) lo := by
  induction a generalizing hi with
  | nil => cases h1; exact h2
  | cons x a ih => exact ⟨h1.1, ih h1.2⟩

theorem waterLoop_spec (v : Nat → ℚ) : ∀ (js : List Nat) (top : Nat) (loc : ℚ), js.length ≤ top →
    Path loc (waterLoop v js top loc).1 (waterLoop v js top loc).2 ∧
    (waterLoop v js top loc).2 = loc - (js.map v).sum ∧
    (waterLoop v js top loc).1.map (·.row) = (List.range' (top - js.length) js.length).reverse ∧
    (waterLoop v js top loc).1.map (·.label) = js.map .feature ∧
    ∀ b ∈ (waterLoop v js top loc).1, ∃ j ∈ js, b.label = .feature j ∧ b.width = v j ∧ (b.red = true ↔ 0 ≤ v j)
  | [], top, loc, _ => by simp [waterLoop, Path]
  | j :: js, top, loc, h => by
    simp only [List.length_cons] at h
    obtain ⟨h1, h2, h3, h4, h5⟩ := waterLoop_spec v js (top - 1) (loc - v j) (by omega)
    simp only [waterLoop, List.map_cons, List.sum_cons, List.length_cons]
    refine ⟨⟨by simp, h1⟩, by rw [h2]; ring, ?_, by rw [h4], ?_⟩
    · rw [h3, List.range'_concat, List.reverse_append]
      have e : top - 1 - js.length = top - (js.length + 1) := by omega
      rw [e, List.reverse_singleton, List.singleton_append]
      congr 1
      omega
    · intro b hb
      rcases List.mem_cons.1 hb with rfl | hb
      · exact ⟨j, by simp, rfl, rfl, by simp⟩
      · obtain ⟨i, hi, e⟩ := h5 b hb
        exact ⟨i, by simp [hi], e⟩

/-- `order` lists the features by decreasing absolute value. -/
structure ByMagnitude (n : Nat) (v : Nat → ℚ) (order : List Nat) : Prop where
  perm : order.Perm (List.range n)
  sorted : order.Pairwise fun a b => |v b| ≤ |v a|

/-- **C99, the plot.** For every base value, every list of values, every order by magnitude (whatever the ties) and every `max_display`
other than 0: the arrows occupy the rows from top to bottom, one each, and form a path from `f(x) = base + sum of the values` to the base
value. With `shown` the first features of the order (all of them if there is room for all, else one less than `max_display`), the arrows
are those of `shown` in this order, each with the value of the feature it names as length, red when it is not negative; if features are
left, a last arrow names their exact number and has the sum of their values as length, red exactly when it is positive; no feature left
has a larger magnitude than a feature shown. -/
theorem C99_plot (base : ℚ) {n : Nat} (hn : n ≠ 0) (v : Nat → ℚ) {order : List Nat} (ho : ByMagnitude n v order) {maxDisplay : Nat}
    (hm : maxDisplay ≠ 0) :
    ∃ p shown rest, waterfall base n v order maxDisplay = some p ∧ p.base = base ∧ p.fx = base + ((List.range n).map v).sum ∧
      Path p.fx p.bars p.base ∧
      p.bars.map (·.row) = (List.range (min maxDisplay n)).reverse ∧
      (shown ++ rest).Perm (List.range n) ∧
      (∀ a ∈ shown, ∀ b ∈ rest, |v b| ≤ |v a|) ∧
      shown.Pairwise (fun a b => |v b| ≤ |v a|) ∧
      (n ≤ maxDisplay → rest = [] ∧ p.bars.map (·.label) = shown.map .feature) ∧
      (maxDisplay < n → rest.length = n - maxDisplay + 1 ∧
        p.bars.map (·.label) = shown.map .feature ++ [.others rest.length]) ∧
      (∀ b ∈ p.bars, ∀ j, b.label = .feature j → b.width = v j ∧ (b.red = true ↔ 0 ≤ v j)) ∧
      (∀ b ∈ p.bars, ∀ c, b.label = .others c → b.width = (rest.map v).sum ∧ (b.red = true ↔ 0 < (rest.map v).sum)) := by
  have hlen : order.length = n := by rw [ho.perm.length_eq, List.length_range]
  have hsum : ((List.range n).map v).sum = (order.map v).sum := (ho.perm.map v).sum_eq.symm
  have hnf : ¬ min maxDisplay n = 0 := by omega
  have hsplit : ∀ k, (∀ a ∈ order.take k, ∀ b ∈ order.drop k, |v b| ≤ |v a|) ∧ (order.take k).Pairwise (fun a b => |v b| ≤ |v a|) := by
    intro k
    have := ho.sorted
    rw [← List.take_append_drop k order, List.pairwise_append] at this
    exact ⟨this.2.2, this.1⟩
  by_cases hle : n ≤ maxDisplay
  · have e1 : min maxDisplay n = n := by omega
    have ht : (order.take n).length = n := by rw [List.length_take]; omega
    obtain ⟨h1, h2, h3, h4, h5⟩ := waterLoop_spec v (order.take n) n (base + ((List.range n).map v).sum) (by omega)
    have hte : order.take n = order := List.take_of_length_le (by omega)
    refine ⟨⟨(waterLoop v (order.take n) n (base + ((List.range n).map v).sum)).1, base, base + ((List.range n).map v).sum⟩, order, [],
      ?_, rfl, rfl, ?_, ?_, ?_, ?_, ?_, ?_, ?_, ?_, ?_⟩
    · unfold waterfall
      simp only [e1, if_true, lt_irrefl, if_false, List.append_nil]
      rw [if_neg hn]
    · rw [h2, hte, hsum] at h1
      rw [hte]
      simp only [hsum] at h1 ⊢
      convert h1 using 1
      ring
    · rw [h3, ht, Nat.sub_self, e1, List.range_eq_range']
    · rw [List.append_nil]; exact ho.perm
    · simp
    · exact ho.sorted
    · intro _
      exact ⟨rfl, by rw [h4, hte]⟩
    · intro h; omega
    · intro b hb j hj
      obtain ⟨i, -, e, ew⟩ := h5 b hb
      rw [hj] at e
      cases e
      exact ew
    · intro b hb c hc
      obtain ⟨i, -, e, -⟩ := h5 b hb
      rw [hc] at e
      cases e
  · have hlt : maxDisplay < n := by omega
    have e1 : min maxDisplay n = maxDisplay := by omega
    have ht : (order.take (maxDisplay - 1)).length = maxDisplay - 1 := by rw [List.length_take]; omega
    obtain ⟨h1, h2, h3, h4, h5⟩ := waterLoop_spec v (order.take (maxDisplay - 1)) maxDisplay (base + ((List.range n).map v).sum) (by omega)
    have hparts : (order.map v).sum = ((order.take (maxDisplay - 1)).map v).sum + ((order.drop (maxDisplay - 1)).map v).sum := by
      rw [← List.sum_append, ← List.map_append, List.take_append_drop]
    have hloc : (waterLoop v (order.take (maxDisplay - 1)) maxDisplay (base + ((List.range n).map v).sum)).2 =
        base + ((order.drop (maxDisplay - 1)).map v).sum := by
      rw [h2, hsum, hparts]
      ring
    have hdl : (order.drop (maxDisplay - 1)).length = n - maxDisplay + 1 := by rw [List.length_drop]; omega
    refine ⟨⟨(waterLoop v (order.take (maxDisplay - 1)) maxDisplay (base + ((List.range n).map v).sum)).1 ++
      [⟨0, base, ((order.drop (maxDisplay - 1)).map v).sum, decide (0 < ((order.drop (maxDisplay - 1)).map v).sum),
        .others (n - maxDisplay + 1)⟩], base, base + ((List.range n).map v).sum⟩, order.take (maxDisplay - 1), order.drop (maxDisplay - 1),
      ?_, rfl, rfl, ?_, ?_, ?_, (hsplit _).1, (hsplit _).2, ?_, ?_, ?_, ?_⟩
    · unfold waterfall
      simp only [e1, if_neg (show ¬ maxDisplay = n by omega), if_pos hlt, if_neg hm, hloc]
      congr 2
      congr 1
      by_cases hp : 0 < ((order.drop (maxDisplay - 1)).map v).sum
      · rw [if_pos (by linarith), decide_eq_true hp]
        congr 2 <;> ring
      · rw [if_neg (by linarith), decide_eq_false hp]
        congr 2 <;> ring
    · refine Path.append h1 ?_
      rw [hloc]
      exact ⟨rfl, rfl⟩
    · rw [List.map_append, h3, ht, e1]
      have e2 : maxDisplay - (maxDisplay - 1) = 1 := by omega
      have e3 : List.range maxDisplay = 0 :: List.range' 1 (maxDisplay - 1) := by
        obtain ⟨k, rfl⟩ := Nat.exists_eq_succ_of_ne_zero hm
        rw [List.range_eq_range', List.range'_succ]
        simp
      rw [e2, e3, List.reverse_cons]
      rfl
    · rw [List.take_append_drop]; exact ho.perm
    · intro h; omega
    · intro _
      refine ⟨hdl, ?_⟩
      rw [List.map_append, h4, hdl]
      rfl
    · intro b hb j hj
      rcases List.mem_append.1 hb with hb | hb
      · obtain ⟨i, -, e, ew⟩ := h5 b hb
        rw [hj] at e
        cases e
        exact ew
      · rw [List.mem_singleton.1 hb] at hj
        cases hj
    · intro b hb c hc
      rcases List.mem_append.1 hb with hb | hb
      · obtain ⟨i, -, e, -⟩ := h5 b hb
        rw [hc] at e
        cases e
      · rw [List.mem_singleton.1 hb]
        exact ⟨rfl, by simp⟩

/-- Three features, at most two rows: the last two values, 1 and -3, are grouped. -/
example : waterfall 10 3 (fun j => ([1, -5, -3] : List ℚ).getD j 0) [1, 2, 0] 2 =
    some ⟨[⟨1, 8, -5, false, .feature 1⟩, ⟨0, 10, -2, false, .others 2⟩], 10, 3⟩ := by decide +kernel
example : ByMagnitude 3 (fun j => ([1, -5, -3] : List ℚ).getD j 0) [1, 2, 0] := ⟨by decide, by decide +kernel⟩

/-- Without any feature, or with `max_display=0`, no plot is returned. -/
theorem C99_no_plot (base : ℚ) (n : Nat) (v : Nat → ℚ) (order : List Nat) (maxDisplay : Nat) (h : n = 0 ∨ maxDisplay = 0) :
    waterfall base n v order maxDisplay = none := by
  unfold waterfall
  rw [if_pos (by omega)]

/-! ## The page -/

/-- The claim of C99 for the page: for every forest, background (training) set and test set, the page shows, for every observation it
offers, a plot whose line `f(x)` is the prediction of that observation. -/
def C99_page_claim : Prop :=
  ∀ (ts : List TreeArr) (m : Nat), (∀ t ∈ ts, WellFormed t m) → m ≠ 0 → m < ulongMax →
  ∀ (train test : List Row) (k : Nat) (off : Nat → ℚ) (P : Row → ℚ), train ≠ [] →
  (∀ z, ensemblePredict ts none none off (full z) k = some (P z)) →
  (∀ x ∈ test, ∀ t ∈ ts, ∀ ℓ, EndsIn t (full x) ℓ → ∃ z ∈ train, EndsIn t (full z) ℓ) →
  ∀ (order : (Nat → ℚ) → List Nat), (∀ v, ByMagnitude m v (order v)) →
  ∀ idx x, test[idx]? = some x →
    ∃ p, svPage m (fun x j => shapCy ts m train [[]] x j k) P test order idx = some p ∧ p.fx = P x

/-- **C99, the page, what it shows.** For the first 100 observations the line `f(x)` is the prediction of the observation plus the mean
prediction of the test set minus that of the training set; for the others the page fails. -/
theorem C99_page {ts : List TreeArr} {m : Nat} (hts : ∀ t ∈ ts, WellFormed t m) (hm0 : m ≠ 0) (hm : m < ulongMax)
    {train test : List Row} (htrain : train ≠ []) (k : Nat) (off : Nat → ℚ) (P : Row → ℚ)
    (hP : ∀ z, ensemblePredict ts none none off (full z) k = some (P z))
    (hleaf : ∀ x ∈ test, ∀ t ∈ ts, ∀ ℓ, EndsIn t (full x) ℓ → ∃ z ∈ train, EndsIn t (full z) ℓ)
    {order : (Nat → ℚ) → List Nat} (ho : ∀ v, ByMagnitude m v (order v)) {idx : Nat} {x : Row} (hx : test[idx]? = some x) :
    (idx < 100 → ∃ p, svPage m (fun x j => shapCy ts m train [[]] x j k) P test order idx = some p ∧
      p.base = (test.map P).sum / test.length ∧
      p.fx = P x + ((test.map P).sum / test.length - (train.map P).sum / train.length)) ∧
    (100 ≤ idx → svPage m (fun x j => shapCy ts m train [[]] x j k) P test order idx = none) := by
  constructor
  · intro hi
    have hne : test.map P ≠ [] := by
      rintro h
      rw [List.map_eq_nil_iff.1 h] at hx
      simp at hx
    obtain ⟨p, shown, rest, hp, hb, hf, -⟩ := C99_plot ((test.map P).sum / test.length) hm0 (fun j => shapCy ts m train [[]] x j k)
      (ho _) (maxDisplay := 10) (by decide)
    refine ⟨p, ?_, hb, ?_⟩
    · unfold svPage
      rw [List.getElem?_take_of_lt hi, hx]
      unfold npMean
      rw [if_neg hne, List.length_map]
      exact hp
    · have heff := C07_efficiency_columns hts htrain hm x k off P hP (hleaf x (List.mem_of_getElem? hx))
      rw [hf]
      have e : ∀ (f : Nat → ℚ) (n : Nat), ((List.range n).map f).sum = ∑ j ∈ Finset.range n, f j := by
        intro f n
        induction n with
        | zero => simp
        | succ n ih => rw [List.range_succ, List.map_append, List.sum_append, ih, Finset.sum_range_succ]; simp
      rw [e, heff]
      ring
  · intro hi
    unfold svPage
    rw [List.getElem?_eq_none (by rw [List.length_take]; omega)]

/-- **C99, the page, partial**: for the first 100 observations the line `f(x)` is the prediction exactly when the mean predictions of the
test set and of the training set agree. Missing (false): different means, and the other observations. -/
theorem C99_page_partial {ts : List TreeArr} {m : Nat} (hts : ∀ t ∈ ts, WellFormed t m) (hm0 : m ≠ 0) (hm : m < ulongMax)
    {train test : List Row} (htrain : train ≠ []) (k : Nat) (off : Nat → ℚ) (P : Row → ℚ)
    (hP : ∀ z, ensemblePredict ts none none off (full z) k = some (P z))
    (hleaf : ∀ x ∈ test, ∀ t ∈ ts, ∀ ℓ, EndsIn t (full x) ℓ → ∃ z ∈ train, EndsIn t (full z) ℓ)
    {order : (Nat → ℚ) → List Nat} (ho : ∀ v, ByMagnitude m v (order v)) {idx : Nat} {x : Row} (hx : test[idx]? = some x) :
    (∃ p, svPage m (fun x j => shapCy ts m train [[]] x j k) P test order idx = some p ∧ p.fx = P x) ↔
      idx < 100 ∧ (test.map P).sum / test.length = (train.map P).sum / train.length := by
  obtain ⟨h1, h2⟩ := C99_page hts hm0 hm htrain k off P hP hleaf ho hx
  constructor
  · rintro ⟨p, hp, hf⟩
    have hi : idx < 100 := by
      by_contra h
      rw [h2 (by omega)] at hp
      cases hp
    obtain ⟨p', hp', -, hf'⟩ := h1 hi
    rw [hp] at hp'
    cases hp'
    exact ⟨hi, by linarith⟩
  · rintro ⟨hi, he⟩
    obtain ⟨p, hp, -, hf⟩ := h1 hi
    exact ⟨p, hp, by rw [hf, he]; ring⟩

/-- An order by magnitude for any values. -/
def magnitudeOrder (n : Nat) (v : Nat → ℚ) : List Nat := (List.range n).insertionSort fun a b => |v b| ≤ |v a|

theorem magnitudeOrder_spec (n : Nat) (v : Nat → ℚ) : ByMagnitude n v (magnitudeOrder n v) where
  perm := List.perm_insertionSort _ _
  sorted := by
    have h1 : Std.Total fun a b => |v b| ≤ |v a| := ⟨fun a b => le_total _ _⟩
    have h2 : IsTrans Nat fun a b => |v b| ≤ |v a| := ⟨fun a b c h1 h2 => le_trans h2 h1⟩
    exact List.pairwise_insertionSort _ _

/-- The prediction of the example tree. -/
def exPred (z : Row) : ℚ := 1 + if z 0 ≤ 1 then 10 else if z 1 ≤ 3 then 20 else 30

theorem exData_leaf : ∀ x ∈ [(fun _ => 2 : Row)], ∀ t ∈ [exTree], ∀ ℓ, EndsIn t (full x) ℓ → ∃ z ∈ exData, EndsIn t (full z) ℓ := by
  intro x hx t _ ℓ hℓ
  rw [List.mem_singleton.1 hx] at hℓ
  exact ⟨fun _ => 2, by simp [exData], hℓ⟩

/-- **C99 is false of the page**: one tree, a test set of one row predicted 21 and a training set of mean prediction 37/2; the line `f(x)`
is at 47/2. -/
theorem C99_page_false : ¬ C99_page_claim := by
  intro h
  have h1 := h [exTree] 3 (by simp [exTree_wf3]) (by decide) (by decide) exData [fun _ => 2] 0 (fun _ => 1) exPred (by simp [exData])
    exTree_predict exData_leaf (magnitudeOrder 3) (magnitudeOrder_spec 3) 0 (fun _ => 2) rfl
  rw [C99_page_partial (by simp [exTree_wf3]) (by decide) (by decide) (by simp [exData]) 0 (fun _ => 1) exPred exTree_predict exData_leaf
    (magnitudeOrder_spec 3) (idx := 0) (x := fun _ => 2) rfl] at h1
  have h2 := h1.2
  revert h2
  decide +kernel

example : (svPage 3 (fun x j => shapCy [exTree] 3 exData [[]] x j 0) exPred [fun _ => 2] (magnitudeOrder 3) 0).map (fun p => (p.base, p.fx)) =
    some (21, 47 / 2) := by decide +kernel

/-- A training set and a test set with the same mean prediction. -/
example : ([(fun _ => 2 : Row), fun _ => 0].map exPred).sum / 2 = ([(fun _ => 0 : Row), fun _ => 2].map exPred).sum / 2 := by decide +kernel

end Acv
