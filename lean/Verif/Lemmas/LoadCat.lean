import Verif.Spec.LoadCat
import Verif.Lemmas.Tree
import Mathlib.Tactic.Ring
import Mathlib.Tactic.Linarith
import Mathlib.Data.Nat.Log

namespace Acv

/-- The heap-shaped tree: the children of `i` are `2 * i + 1` and `2 * i + 2`. -/
def heapTree : List CbSplit → Nat → BTree
  | [], i => .leaf i
  | s :: l, i => .node i s.feature s.threshold (heapTree l (2 * i + 1)) (heapTree l (2 * i + 2))

theorem heapTree_id (l : List CbSplit) (i : Nat) : (heapTree l i).id = i := by
  cases l <;> rfl

theorem mem_heapTree : ∀ (l : List CbSplit) (i n : Nat), n ∈ (heapTree l i).ids ↔ ∃ m ≤ l.length, (n + 1) / 2 ^ m = i + 1 := by
  intro l
  induction l with
  | nil =>
    intro i n
    simp [heapTree, BTree.ids]
  | cons s l ih =>
    intro i n
    have hdiv : ∀ m, (n + 1) / 2 ^ (m + 1) = (n + 1) / 2 ^ m / 2 := by
      intro m
      rw [pow_succ, Nat.div_div_eq_div_mul]
    rw [heapTree, BTree.ids, List.mem_cons, List.mem_append, ih, ih, List.length_cons]
    constructor
    · rintro (rfl | ⟨m, hm, h⟩ | ⟨m, hm, h⟩)
      · exact ⟨0, by omega, by simp⟩
      · exact ⟨m + 1, by omega, by rw [hdiv, h]; omega⟩
      · exact ⟨m + 1, by omega, by rw [hdiv, h]; omega⟩
    · rintro ⟨m, hm, h⟩
      cases m with
      | zero => left; simpa using h
      | succ m =>
        rw [hdiv] at h
        have : (n + 1) / 2 ^ m = 2 * i + 1 + 1 ∨ (n + 1) / 2 ^ m = 2 * i + 2 + 1 := by omega
        rcases this with h | h
        · right; left; exact ⟨m, by omega, h⟩
        · right; right; exact ⟨m, by omega, h⟩

theorem pow_div_lt {a m m' : Nat} (h : m ≤ m') : a / 2 ^ m' ≤ a / 2 ^ m :=
  Nat.div_le_div_left (Nat.pow_le_pow_right (by decide) h) (Nat.pow_pos (by decide))

theorem half_le {a m m' : Nat} (h : m < m') : a / 2 ^ m' ≤ a / 2 ^ m / 2 := by
  have := pow_div_lt (a := a) (Nat.succ_le_of_lt h)
  rwa [pow_succ, ← Nat.div_div_eq_div_mul] at this

theorem heapTree_nodup : ∀ (l : List CbSplit) (i : Nat), (heapTree l i).ids.Nodup := by
  intro l
  induction l with
  | nil => intro i; simp [heapTree, BTree.ids]
  | cons s l ih =>
    intro i
    rw [heapTree, BTree.ids, List.nodup_cons, List.mem_append, List.nodup_append]
    refine ⟨?_, ih _, ih _, ?_⟩
    · rw [mem_heapTree, mem_heapTree]
      rintro (⟨m, -, h⟩ | ⟨m, -, h⟩)
      · have := Nat.div_le_self (i + 1) (2 ^ m); omega
      · have := Nat.div_le_self (i + 1) (2 ^ m); omega
    · intro a ha b hb hab
      subst hab
      obtain ⟨m, -, h⟩ := (mem_heapTree _ _ _).1 ha
      obtain ⟨m', -, h'⟩ := (mem_heapTree _ _ _).1 hb
      rcases Nat.lt_trichotomy m m' with hm | hm | hm
      · have := half_le (a := a + 1) hm; omega
      · subst hm; omega
      · have := half_le (a := a + 1) hm; omega

theorem heapTree_all (l : List CbSplit) (n : Nat) : n ∈ (heapTree l 0).ids ↔ n < 2 ^ (l.length + 1) - 1 := by
  rw [mem_heapTree]
  have hp : 0 < 2 ^ (l.length + 1) := Nat.pow_pos (by decide)
  constructor
  · rintro ⟨m, hm, h⟩
    have h1 : n + 1 < 2 ^ (m + 1) := by
      have hm0 : 0 < 2 ^ m := Nat.pow_pos (by decide)
      have := (Nat.div_lt_iff_lt_mul hm0).1 (show (n + 1) / 2 ^ m < 2 by omega)
      rw [pow_succ]
      omega
    have h2 : 2 ^ (m + 1) ≤ 2 ^ (l.length + 1) := Nat.pow_le_pow_right (by decide) (by omega)
    omega
  · intro h
    refine ⟨Nat.log 2 (n + 1), ?_, ?_⟩
    · have := Nat.log_lt_of_lt_pow (b := 2) (x := l.length + 1) (y := n + 1) (by omega) (by omega)
      omega
    · have h1 := Nat.pow_log_le_self 2 (show n + 1 ≠ 0 by omega)
      have h2 := Nat.lt_pow_succ_log_self (b := 2) (by decide) (n + 1)
      rw [pow_succ] at h2
      apply Nat.div_eq_of_lt_le
      · omega
      · omega

/-! ## Arrays -/

theorem unravelFrom_length {α : Type} : ∀ (l : List α) (c : Nat), (unravelFrom c l).length = 2 ^ c * (2 ^ l.length - 1) := by
  intro l
  induction l with
  | nil => intro c; simp [unravelFrom]
  | cons a l ih =>
    intro c
    rw [unravelFrom, List.length_append, List.length_replicate, ih, List.length_cons, pow_succ, pow_succ]
    have : 0 < 2 ^ l.length := Nat.pow_pos (by decide)
    obtain ⟨k, hk⟩ : ∃ k, 2 ^ l.length = k + 1 := ⟨2 ^ l.length - 1, by omega⟩
    rw [hk]
    have e : (k + 1) * 2 - 1 = 2 * k + 1 := by omega
    rw [e]
    simp only [Nat.add_sub_cancel]
    ring

theorem unravelFrom_get {α : Type} : ∀ (l : List α) (c k j : Nat), k < l.length → j < 2 ^ (c + k) →
    (unravelFrom c l)[2 ^ c * (2 ^ k - 1) + j]? = l[k]? := by
  intro l
  induction l with
  | nil => intro c k j h; simp at h
  | cons a l ih =>
    intro c k j hk hj
    rw [unravelFrom]
    cases k with
    | zero =>
      simp only [pow_zero, Nat.sub_self, Nat.mul_zero, Nat.zero_add, Nat.add_zero] at hj ⊢
      rw [List.getElem?_append_left (by simpa using hj), List.getElem?_replicate, if_pos hj]
      rfl
    | succ k =>
      have hp : 0 < 2 ^ k := Nat.pow_pos (by decide)
      have e : 2 ^ c * (2 ^ (k + 1) - 1) + j = 2 ^ c + (2 ^ (c + 1) * (2 ^ k - 1) + j) := by
        obtain ⟨r, hr⟩ : ∃ r, 2 ^ k = r + 1 := ⟨2 ^ k - 1, by omega⟩
        rw [pow_succ, pow_succ, hr]
        have : (r + 1) * 2 - 1 = 2 * r + 1 := by omega
        rw [this]
        simp only [Nat.add_sub_cancel]
        ring
      rw [e, List.getElem?_append_right (by simp)]
      simp only [List.length_replicate, Nat.add_sub_cancel_left, List.getElem?_cons_succ]
      apply ih
      · simpa using hk
      · have : c + 1 + k = c + (k + 1) := by omega
        rw [this]; exact hj

theorem cbUnravel_get {α : Type} (l : List α) (pad : α) (n : Nat) {c i : Nat} (hc : c < l.length) (h1 : 2 ^ c ≤ i + 1)
    (h2 : i + 1 < 2 ^ (c + 1)) {a : α} (ha : l.reverse[c]? = some a) : (cbUnravel l pad n)[i]? = some a := by
  unfold cbUnravel
  have hlt : i < 2 ^ l.length - 1 := by
    have : 2 ^ (c + 1) ≤ 2 ^ l.length := Nat.pow_le_pow_right (by decide) (by omega)
    omega
  rw [List.getElem?_append_left (by rw [unravelFrom_length]; simpa using hlt)]
  have := unravelFrom_get l.reverse 0 c (i + 1 - 2 ^ c) (by simpa using hc) (by rw [pow_succ] at h2; simp; omega)
  rw [← ha, ← this]
  congr 1
  have : 0 < 2 ^ c := Nat.pow_pos (by decide)
  simp only [pow_zero, Nat.one_mul]
  omega

theorem cbPadded_length {l : List ℚ} : (cbPadded l).length = l.length - 1 + l.length := by
  simp [cbPadded]

theorem cbPadded_leaf {l : List ℚ} (j : Nat) : (cbPadded l).getD (l.length - 1 + j) 0 = l.getD j 0 := by
  unfold cbPadded
  rw [List.getD_eq_getElem?_getD, List.getElem?_append_right (by simp)]
  simp

theorem cbLoad_children (splits : List CbSplit) (values weights : List ℚ) (i : Nat) :
    ((cbLoad splits values weights).left i = if i < values.length - 1 then ((2 * i + 1 : Nat) : Int) else -1) ∧
    ((cbLoad splits values weights).right i = if i < values.length - 1 then ((2 * i + 2 : Nat) : Int) else -1) ∧
    (cbLoad splits values weights).dflt i = (cbLoad splits values weights).left i := by
  refine ⟨?_, ?_, rfl⟩
  · show ((List.range (values.length - 1)).map (fun i => ((i * 2 + 1 : Nat) : Int)) ++ List.replicate values.length (-1)).getD i (-1) = _
    rw [List.getD_eq_getElem?_getD]
    split
    · next h =>
      rw [List.getElem?_append_left (by simpa using h), List.getElem?_map, List.getElem?_range h]
      simp [mul_comm]
    · next h =>
      rw [List.getElem?_append_right (by simpa using h), List.getElem?_replicate]
      split <;> rfl
  · show ((List.range' 1 (values.length - 1)).map (fun i => ((i * 2 : Nat) : Int)) ++ List.replicate values.length (-1)).getD i (-1) = _
    rw [List.getD_eq_getElem?_getD]
    split
    · next h =>
      rw [List.getElem?_append_left (by simpa using h), List.getElem?_map, List.getElem?_range' h]
      simp
      ring
    · next h =>
      rw [List.getElem?_append_right (by simpa using h), List.getElem?_replicate]
      split <;> rfl

theorem drop_cons_get {α : Type} {l : List α} {c : Nat} {a : α} {r : List α} (h : l.drop c = a :: r) :
    l[c]? = some a ∧ c < l.length ∧ l.drop (c + 1) = r := by
  have hc : c < l.length := by
    by_contra hc
    rw [List.drop_eq_nil_of_le (not_lt.1 hc)] at h
    cases h
  rw [List.drop_eq_getElem_cons hc] at h
  injection h with h1 h2
  exact ⟨by rw [List.getElem?_eq_getElem hc, h1], hc, h2⟩

theorem cbLoad_encodes {splits : List CbSplit} {values weights : List ℚ} (hv : values.length = 2 ^ splits.length) :
    ∀ (rest : List CbSplit) (c i : Nat), splits.reverse.drop c = rest → c ≤ splits.length → 2 ^ c ≤ i + 1 → i + 1 < 2 ^ (c + 1) →
      Encodes (cbLoad splits values weights) (heapTree rest i) := by
  intro rest
  induction rest with
  | nil =>
    intro c i hr hcl h1 h2
    have hc : splits.length ≤ c := by simpa using List.drop_eq_nil_iff.1 hr
    obtain ⟨e1, e2, -⟩ := cbLoad_children splits values weights i
    have : ¬ i < values.length - 1 := by
      have : 2 ^ splits.length ≤ 2 ^ c := Nat.pow_le_pow_right (by decide) hc
      omega
    rw [if_neg this] at e1 e2
    exact ⟨by rw [e1]; decide, by rw [e2]; decide⟩
  | cons s rest ih =>
    intro c i hr hcl h1 h2
    obtain ⟨g1, g2, g3⟩ := drop_cons_get hr
    have g2' : c < splits.length := by simpa using g2
    obtain ⟨e1, e2, e3⟩ := cbLoad_children splits values weights i
    have hlt : i < values.length - 1 := by
      have : 2 ^ (c + 1) ≤ 2 ^ splits.length := Nat.pow_le_pow_right (by decide) g2'
      omega
    rw [if_pos hlt] at e1 e2
    have p1 : 2 ^ (c + 1) ≤ 2 * i + 1 + 1 := by rw [pow_succ]; omega
    have p2 : 2 * i + 2 + 1 < 2 ^ (c + 1 + 1) := by rw [pow_succ]; omega
    refine ⟨?_, ?_, Or.inl e3, ?_, ?_, ih (c + 1) (2 * i + 1) g3 g2' p1 (by omega), ih (c + 1) (2 * i + 2) g3 g2' (by omega) p2⟩
    · rw [e1, heapTree_id]
    · rw [e2, heapTree_id]
    · show (((cbUnravel (splits.map CbSplit.feature) 0 values.length).getD i 0 : Nat) : Int) = _
      rw [List.getD_eq_getElem?_getD, cbUnravel_get (splits.map CbSplit.feature) 0 values.length (c := c) (by simpa using g2') h1 h2
        (a := s.feature) (by rw [← List.map_reverse, List.getElem?_map, g1]; rfl)]
      rfl
    · show (cbUnravel (splits.map CbSplit.threshold) 0 values.length).getD i 0 = _
      rw [List.getD_eq_getElem?_getD, cbUnravel_get (splits.map CbSplit.threshold) 0 values.length (c := c) (by simpa using g2') h1 h2
        (a := s.threshold) (by rw [← List.map_reverse, List.getElem?_map, g1]; rfl)]
      rfl

theorem heapTree_vars : ∀ (l : List CbSplit) (i : Nat), ∀ f ∈ (heapTree l i).vars, ∃ s ∈ l, f = s.feature := by
  intro l
  induction l with
  | nil => intro i f h; simp [heapTree, BTree.vars] at h
  | cons s l ih =>
    intro i f h
    rw [heapTree, BTree.vars, List.mem_cons, List.mem_append] at h
    rcases h with rfl | h | h
    · exact ⟨s, by simp, rfl⟩
    · obtain ⟨s', h1, h2⟩ := ih _ f h; exact ⟨s', by simp [h1], h2⟩
    · obtain ⟨s', h1, h2⟩ := ih _ f h; exact ⟨s', by simp [h1], h2⟩

theorem cbLoad_isTree {splits : List CbSplit} {values weights : List ℚ} (hv : values.length = 2 ^ splits.length) {d : Nat}
    (hd : ∀ s ∈ splits, s.feature < d) : IsTree (cbLoad splits values weights) d (heapTree splits.reverse 0) where
  root := heapTree_id _ _
  enc := cbLoad_encodes hv _ 0 0 rfl (by omega) (by simp) (by simp)
  nodup := heapTree_nodup _ _
  all := by
    intro n
    rw [heapTree_all]
    show _ ↔ n < (cbPadded values).length
    rw [cbPadded_length, hv, List.length_reverse, pow_succ]
    have : 0 < 2 ^ splits.length := Nat.pow_pos (by decide)
    omega
  vars := by
    intro f hf
    obtain ⟨s, hs, rfl⟩ := heapTree_vars _ _ f hf
    exact hd s (List.mem_reverse.1 hs)

/-- The number whose bits are the results of the splits, first split most significant. -/
def msbIndex (F : CbFeatures) (x : Obs) : List CbSplit → Nat
  | [] => 0
  | s :: l => (cbPasses F x s).toNat * 2 ^ l.length + msbIndex F x l

theorem msbIndex_append (F : CbFeatures) (x : Obs) (s : CbSplit) : ∀ (l : List CbSplit),
    msbIndex F x (l ++ [s]) = 2 * msbIndex F x l + (cbPasses F x s).toNat := by
  intro l
  induction l with
  | nil => simp [msbIndex]
  | cons a l ih =>
    rw [List.cons_append, msbIndex, msbIndex, ih, List.length_append, List.length_singleton, pow_succ]
    ring

theorem msbIndex_reverse (F : CbFeatures) (x : Obs) : ∀ (l : List CbSplit), msbIndex F x l.reverse = cbIndex F x l := by
  intro l
  induction l with
  | nil => rfl
  | cons s l ih =>
    rw [List.reverse_cons, msbIndex_append, ih, cbIndex]
    omega

theorem heapTree_descend {F : CbFeatures} {x : Obs} {t : TreeArr} : ∀ (l : List CbSplit) (i : Nat), Encodes t (heapTree l i) →
    (∀ i, t.dflt i = t.left i) → CbPlain F x l →
    (heapTree l i).descendObs t x + 1 = (i + 1) * 2 ^ l.length + msbIndex F x l := by
  intro l
  induction l with
  | nil => intro i _ _ _; simp [heapTree, BTree.descendObs, msbIndex]
  | cons s l ih =>
    intro i he hdf hp
    obtain ⟨k, b, rfl, hcol, hnan⟩ := hp s (by simp)
    obtain ⟨h1, h2, -, h4, h5, h6, h7⟩ := he
    have hp' : CbPlain F x l := fun s hs => hp s (by simp [hs])
    rw [heapTree, descendObs_node, msbIndex, List.length_cons, pow_succ]
    have hl := ih (2 * i + 1) h6 hdf hp'
    have hr := ih (2 * i + 2) h7 hdf hp'
    have hf : (CbSplit.float k b).feature = k := rfl
    simp only [hf, cbPasses, hcol]
    cases hx : x k with
    | none =>
      rw [hnan hx]
      simp only [hdf, h1, if_true]
      rw [hl]
      simp
      ring
    | some v =>
      simp only
      by_cases hv : v ≤ (CbSplit.float k b).threshold
      · have hv' : ¬ b < v := not_lt.2 hv
        rw [if_pos hv, hl]
        simp [hv']
        ring
      · have hv' : b < v := not_le.1 hv
        rw [if_neg hv, hr]
        simp [hv']
        ring

/-! ## Weights -/

theorem cbSumUp_length : ∀ (k : Nat) (w : List ℚ), (cbSumUp k w).length = w.length := by
  intro k
  induction k with
  | zero => intro w; rfl
  | succ k ih => intro w; rw [cbSumUp, ih, List.length_set]

/-- Entries that the loop does not reach keep their value. -/
theorem cbSumUp_keep : ∀ (k : Nat) (w : List ℚ) (i : Nat), i = 0 ∨ k < i → (cbSumUp k w).getD i 0 = w.getD i 0 := by
  intro k
  induction k with
  | zero => intro w i _; rfl
  | succ k ih =>
    intro w i hi
    rw [cbSumUp, ih _ i (by omega)]
    rw [List.getD_eq_getElem?_getD, List.getElem?_set_ne (by omega), List.getD_eq_getElem?_getD]

theorem cbSumUp_sum : ∀ (k : Nat) (w : List ℚ) (i : Nat), 1 ≤ i → i ≤ k → k < w.length →
    (cbSumUp k w).getD i 0 = (cbSumUp k w).getD (2 * i + 1) 0 + (cbSumUp k w).getD (2 * i + 2) 0 := by
  intro k
  induction k with
  | zero => intro w i h1 h2; omega
  | succ k ih =>
    intro w i h1 h2 hk
    rw [cbSumUp]
    by_cases hi : i = k + 1
    · subst hi
      rw [cbSumUp_keep k _ (k + 1) (by omega), cbSumUp_keep k _ (2 * (k + 1) + 1) (by omega), cbSumUp_keep k _ (2 * (k + 1) + 2) (by omega)]
      rw [List.getD_eq_getElem?_getD, List.getElem?_set_self hk]
      simp only [List.getD_eq_getElem?_getD]
      rw [List.getElem?_set_ne (by omega), List.getElem?_set_ne (by omega)]
      simp
    · exact ih _ i h1 (by omega) (by rw [List.length_set]; omega)

end Acv
