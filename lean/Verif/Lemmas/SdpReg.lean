import Verif.Lemmas.TreeSdp
import Verif.Model.SdpReg
import Mathlib.Tactic.Linarith
import Mathlib.Tactic.Ring
import Mathlib.Tactic.FieldSimp

namespace Acv

/-- counts of rows in pairs of leaves -/
theorem sum_pair_counts {t t' : TreeArr} {m : Nat} (h : WellFormed t m) (h' : WellFormed t' m) (rows : List Row) (f f' : Nat → ℚ) :
    (t.leafIdx.map fun ℓ => (t'.leafIdx.map fun ℓ' =>
      ((rows.filter fun z => sat (t.leafRect ℓ) (List.range m) z && sat (t'.leafRect ℓ') (List.range m) z).length : ℚ)
        * f ℓ * f' ℓ').sum).sum
      = (rows.map fun z => f (leafAt t z) * f' (leafAt t' z)).sum := by
  classical
  induction rows with
  | nil => simp
  | cons z rows ih =>
    rw [List.map_cons, List.sum_cons, ← ih]
    have e : f (leafAt t z) * f' (leafAt t' z) =
        (t.leafIdx.map fun ℓ => (t'.leafIdx.map fun ℓ' =>
          if InBox m (t'.leafRect ℓ') z then (if InBox m (t.leafRect ℓ) z then f ℓ * f' ℓ' else 0) else 0).sum).sum := by
      have : ∀ ℓ, (t'.leafIdx.map fun ℓ' =>
          if InBox m (t'.leafRect ℓ') z then (if InBox m (t.leafRect ℓ) z then f ℓ * f' ℓ' else 0) else 0).sum
          = if InBox m (t.leafRect ℓ) z then f ℓ * f' (leafAt t' z) else 0 := fun ℓ =>
        sum_leaf_indicator h' z fun ℓ' => if InBox m (t.leafRect ℓ) z then f ℓ * f' ℓ' else 0
      simp only [this]
      exact (sum_leaf_indicator h z fun ℓ => f ℓ * f' (leafAt t' z)).symm
    rw [e, ← sum_map_add]
    congr 1
    apply List.map_congr_left
    intro ℓ _
    rw [← sum_map_add]
    congr 1
    apply List.map_congr_left
    intro ℓ' _
    rw [List.filter_cons]
    by_cases h1 : sat (t.leafRect ℓ) (List.range m) z = true <;> by_cases h2 : sat (t'.leafRect ℓ') (List.range m) z = true
    · have a1 := sat_range.mp h1
      have a2 := sat_range.mp h2
      simp only [h1, h2, a1, a2, if_true, Bool.and_self, List.length_cons]; push_cast; ring
    · have a2 := mt sat_range.mpr h2
      simp [h2, a2]
    · have a1 := mt sat_range.mpr h1
      simp [h1, a1]
    · have a1 := mt sat_range.mpr h1
      simp [h1, a1]

/-- in a list of indexed elements exactly one has a given index -/
theorem zipIdx_single {α : Type} (l : List α) (n : Nat) (i : Nat) (hi : n ≤ i ∧ i < n + l.length) (c : ℚ) :
    ((l.zipIdx n).map fun q => if i = q.2 then c else 0).sum = c := by
  induction l generalizing n with
  | nil => simp at hi; omega
  | cons a l ih =>
    rw [List.zipIdx_cons, List.map_cons, List.sum_cons]
    by_cases h : i = n
    · subst h
      have : ∀ q ∈ l.zipIdx (i + 1), ¬ i = q.2 := by
        intro q hq he
        have := List.le_snd_of_mem_zipIdx hq
        omega
      rw [List.map_congr_left (g := fun _ => (0 : ℚ)) fun q hq => if_neg (this q hq)]
      simp
    · simp only [h, if_false, zero_add]
      exact ih (n + 1) (by simp at hi; omega)

theorem zipIdx_map_fst {α : Type} (l : List α) (n : Nat) (f : α → ℚ) :
    ((l.zipIdx n).map fun q => f q.1) = l.map f := by
  induction l generalizing n with
  | nil => rfl
  | cons a l ih => rw [List.zipIdx_cons, List.map_cons, List.map_cons, ih]

theorem sumTreePairs_congr {ts : List TreeArr} {d d' : TreeArr → ℚ} {o o' : TreeArr → TreeArr → ℚ}
    (hd : ∀ t ∈ ts, d t = d' t) (ho : ∀ t ∈ ts, ∀ t' ∈ ts, o t t' = o' t t') :
    sumTreePairs ts d o = sumTreePairs ts d' o' := by
  unfold sumTreePairs
  congr 1
  apply List.map_congr_left
  intro p hp
  congr 1
  apply List.map_congr_left
  intro q hq
  have h1 := List.fst_mem_of_mem_zipIdx hp
  have h2 := List.fst_mem_of_mem_zipIdx hq
  split
  · exact hd _ h1
  · exact ho _ h1 _ h2

theorem sum_rows_swap {α : Type} (l : List α) (rows : List Row) (f : α → Row → ℚ) :
    (l.map fun a => (rows.map fun z => f a z).sum).sum = (rows.map fun z => (l.map fun a => f a z).sum).sum := by
  induction rows with
  | nil => simp
  | cons z rows ih => simp only [List.map_cons, List.sum_cons, ← ih, sum_map_add]

/-- the square of a sum, with a linear term on the diagonal -/
theorem sumTreePairs_square (ts : List TreeArr) (v : TreeArr → ℚ) (c : ℚ) :
    sumTreePairs ts (fun t => v t * v t - c * v t) (fun t t' => v t * v t')
      = (ts.map v).sum * (ts.map v).sum - c * (ts.map v).sum := by
  unfold sumTreePairs
  have inner : ∀ p ∈ ts.zipIdx, (ts.zipIdx.map fun q => if p.2 = q.2 then v p.1 * v p.1 - c * v p.1 else v p.1 * v q.1).sum
      = v p.1 * (ts.map v).sum - c * v p.1 := by
    intro p hp
    have hidx : 0 ≤ p.2 ∧ p.2 < 0 + ts.length := ⟨Nat.zero_le _, by
      have := List.snd_lt_of_mem_zipIdx hp; omega⟩
    have hsplit : ∀ q ∈ ts.zipIdx, (if p.2 = q.2 then v p.1 * v p.1 - c * v p.1 else v p.1 * v q.1)
        = v p.1 * v q.1 + (if p.2 = q.2 then - (c * v p.1) else 0) := by
      intro q hq
      split
      · rename_i he
        have h1 := List.mem_zipIdx_iff_getElem? .. |>.mp hp
        have h2 := List.mem_zipIdx_iff_getElem? .. |>.mp hq
        rw [← he, h1] at h2
        rw [Option.some.inj h2]; ring
      · ring
    rw [List.map_congr_left hsplit, sum_map_add, zipIdx_single ts 0 p.2 hidx]
    have : (ts.zipIdx.map fun q => v p.1 * v q.1).sum = v p.1 * (ts.map v).sum := by
      rw [← zipIdx_map_fst ts 0 v, ← List.sum_map_mul_left]
    rw [this]; ring
  rw [List.map_congr_left inner]
  have e := zipIdx_map_fst ts 0 fun t => v t * (ts.map v).sum - c * v t
  rw [e]
  have e2 : (ts.map fun t => v t * (ts.map v).sum - c * v t) = ts.map fun t => v t * ((ts.map v).sum - c) :=
    List.map_congr_left fun t _ => by ring
  rw [e2, List.sum_map_mul_right]; ring

theorem regDiag_eq (p n fx v : ℚ) : regDiag p n fx v = (p * (v * v - 2 * fx * v)) / n := by
  unfold regDiag
  split
  · ring
  · rename_i h; rw [not_not.mp h]; simp

theorem regOff_eq (p n v v' : ℚ) : regOff p n v v' = p * v * v' / n := by
  unfold regOff
  split
  · rfl
  · rename_i h; rw [not_not.mp h]; simp

theorem sumTreePairs_rows (ts : List TreeArr) (rows : List Row) (d : TreeArr → Row → ℚ) (o : TreeArr → TreeArr → Row → ℚ) (n : ℚ) :
    sumTreePairs ts (fun t => (rows.map fun z => d t z).sum / n) (fun t t' => (rows.map fun z => o t t' z).sum / n)
      = (rows.map fun z => sumTreePairs ts (fun t => d t z) (fun t t' => o t t' z)).sum / n := by
  unfold sumTreePairs
  rw [← sum_rows_swap, div_eq_mul_inv, ← List.sum_map_mul_right]
  congr 1
  apply List.map_congr_left
  intro p _
  rw [← sum_rows_swap, ← List.sum_map_mul_right]
  congr 1
  apply List.map_congr_left
  intro q _
  by_cases h : p.2 = q.2 <;> simp [h, div_eq_mul_inv]

/-- what the trees add up to at `z` -/
def treeTotal (ts : List TreeArr) (z : Row) : ℚ := (ts.map fun t => t.value (leafAt t z) 0).sum

theorem sat_skip {r : Rect} {m : Nat} {S : List Nat} (hS : ∀ s ∈ S, s < m) {x z : Row} (hz : ∀ s ∈ S, z s = x s)
    (h : sat r (List.range m) z = true) : sat r S x = true := by
  rw [sat_iff] at h ⊢
  intro s hs
  rw [← hz s hs]
  exact h s (List.mem_range.mpr (hS s hs))

theorem list_sum_mul_div {α : Type} (l : List α) (f : α → ℚ) (n : ℚ) :
    (l.map fun a => f a / n).sum = (l.map f).sum / n := by
  simp only [div_eq_mul_inv]
  rw [← List.sum_map_mul_right]

/-- off the thresholds, the mean of a group of rows that agree with `x` on `S` is the mean of `g² - 2 fx g` -/
theorem regCatMean_eq {ts : List TreeArr} {m : Nat} (hts : ∀ t ∈ ts, WellFormed t m) {S : List Nat} (hS : ∀ s ∈ S, s < m)
    {x : Row} (hx : ∀ t ∈ ts, OffSplits t x) (fx : ℚ) {rows : List Row} (hr : ∀ z ∈ rows, ∀ s ∈ S, z s = x s)
    (hd : ∀ t ∈ ts, ∀ z ∈ rows, OffSplits t z) :
    regCatMean ts m S x fx rows
      = meanOver rows fun z => treeTotal ts z * treeTotal ts z - 2 * fx * treeTotal ts z := by
  have step : regCatMean ts m S x fx rows
      = sumTreePairs ts
        (fun t => (rows.map fun z => t.value (leafAt t z) 0 * t.value (leafAt t z) 0 - 2 * fx * t.value (leafAt t z) 0).sum / rows.length)
        (fun t t' => (rows.map fun z => t.value (leafAt t z) 0 * t'.value (leafAt t' z) 0).sum / rows.length) := by
    unfold regCatMean
    apply sumTreePairs_congr
    · intro t ht
      rw [← sum_leaf_counts (hts t ht) rows fun ℓ => t.value ℓ 0 * t.value ℓ 0 - 2 * fx * t.value ℓ 0, ← list_sum_mul_div]
      congr 1
      apply List.map_congr_left
      intro ℓ hℓ
      rw [satCC_eq (offSplits_lo (hts t ht) (hx t ht) hℓ),
        cntCC_eq fun z hz => offSplits_lo (hts t ht) (hd t ht z hz) hℓ, regDiag_eq]
      by_cases h : sat (t.leafRect ℓ) S x = true
      · rw [if_pos h]
      · rw [if_neg h]
        have : cnt rows (t.leafRect ℓ) (List.range m) = 0 := by
          unfold cnt
          rw [List.length_eq_zero_iff, List.filter_eq_nil_iff]
          exact fun z hz hsat => h (sat_skip hS (hr z hz) hsat)
        rw [this]; simp
    · intro t ht t' ht'
      rw [← sum_pair_counts (hts t ht) (hts t' ht') rows (fun ℓ => t.value ℓ 0) (fun ℓ => t'.value ℓ 0), ← list_sum_mul_div]
      congr 1
      apply List.map_congr_left
      intro ℓ hℓ
      rw [← list_sum_mul_div]
      congr 1
      apply List.map_congr_left
      intro ℓ' hℓ'
      have hc : cntCC2 rows (t.leafRect ℓ) (t'.leafRect ℓ') (List.range m)
          = (rows.filter fun z => sat (t.leafRect ℓ) (List.range m) z && sat (t'.leafRect ℓ') (List.range m) z).length := by
        unfold cntCC2
        congr 1
        apply List.filter_congr
        intro z hz
        rw [satCC_eq (offSplits_lo (hts t ht) (hd t ht z hz) hℓ), satCC_eq (offSplits_lo (hts t' ht') (hd t' ht' z hz) hℓ')]
      rw [satCC_eq (offSplits_lo (hts t ht) (hx t ht) hℓ), satCC_eq (offSplits_lo (hts t' ht') (hx t' ht') hℓ'), hc, regOff_eq]
      by_cases h : (sat (t.leafRect ℓ) S x && sat (t'.leafRect ℓ') S x) = true
      · rw [if_pos h]
      · rw [if_neg h]
        have : (rows.filter fun z => sat (t.leafRect ℓ) (List.range m) z && sat (t'.leafRect ℓ') (List.range m) z) = [] := by
          rw [List.filter_eq_nil_iff]
          intro z hz hsat
          rw [Bool.and_eq_true] at hsat h
          exact h ⟨sat_skip hS (hr z hz) hsat.1, sat_skip hS (hr z hz) hsat.2⟩
        rw [this]; simp
  rw [step, sumTreePairs_rows]
  unfold meanOver treeTotal
  congr 2
  apply List.map_congr_left
  intro z _
  exact sumTreePairs_square ts (fun t => t.value (leafAt t z) 0) (2 * fx)

theorem meanOver_lt {rows : List Row} (hne : rows ≠ []) {P : Row → ℚ} {c : ℚ} (h : ∀ z ∈ rows, c < P z) : c < meanOver rows P := by
  have hl : (0 : ℚ) < rows.length := by exact_mod_cast List.length_pos_of_ne_nil hne
  unfold meanOver
  rw [lt_div_iff₀ hl]
  have key : ∀ l : List Row, (∀ z ∈ l, c < P z) → c * l.length ≤ (l.map P).sum ∧ (l ≠ [] → c * l.length < (l.map P).sum) := by
    intro l
    induction l with
    | nil => simp
    | cons a l ih =>
      intro hl
      have h1 := (ih fun z hz => hl z (List.mem_cons_of_mem _ hz)).1
      have h2 := hl a (by simp)
      simp only [List.map_cons, List.sum_cons, List.length_cons]
      push_cast
      constructor
      · nlinarith
      · intro _; nlinarith
  exact (key rows h).2 hne

theorem meanOver_le {rows : List Row} (hne : rows ≠ []) {P : Row → ℚ} {c : ℚ} (h : ∀ z ∈ rows, P z ≤ c) : meanOver rows P ≤ c := by
  have hl : (0 : ℚ) < rows.length := by exact_mod_cast List.length_pos_of_ne_nil hne
  unfold meanOver
  rw [div_le_iff₀ hl]
  have key : ∀ l : List Row, (∀ z ∈ l, P z ≤ c) → (l.map P).sum ≤ c * l.length := by
    intro l
    induction l with
    | nil => simp
    | cons a l ih =>
      intro hl
      have h1 := ih fun z hz => hl z (List.mem_cons_of_mem _ hz)
      have h2 := hl a (by simp)
      simp only [List.map_cons, List.sum_cons, List.length_cons]
      push_cast
      nlinarith
  exact key rows h

end Acv
