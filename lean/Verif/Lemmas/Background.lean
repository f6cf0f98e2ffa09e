import Verif.Lemmas.Cdp
import Verif.Model.DdpRule
import Verif.Model.SdpReg
import Verif.Model.Normalized
import Verif.Model.ActiveShap
import Verif.Spec.Background

/-!
# Repeated and reordered background rows: the projected forest
-/

namespace Acv

theorem Repeats.perm {k N N' : Nat} {σ : Nat → Nat} (h : Repeats k N N' σ) :
    ((List.range N').map σ).Perm (List.replicate k (List.range N)).flatten := by
  rw [List.perm_iff_count]
  intro i
  have hl : ((List.range N').map σ).count i = ((List.range N').filter fun j => decide (σ j = i)).length := by
    rw [List.count_eq_countP, List.countP_map, List.countP_eq_length_filter]
    congr 1
  have hr : ((List.replicate k (List.range N)).flatten).count i = k * (List.range N).count i := by
    rw [List.count_flatten, List.map_replicate, List.sum_replicate, Nat.nsmul_eq_mul]
  rw [hl, hr]
  by_cases hi : i < N
  · rw [h.times i hi, List.count_eq_one_of_mem List.nodup_range (List.mem_range.2 hi), mul_one]
  · rw [List.count_eq_zero.2 (by simpa using hi), mul_zero, List.length_eq_zero_iff, List.filter_eq_nil_iff]
    intro j hj
    have := h.lt j (List.mem_range.1 hj)
    simp
    omega

/-- The same rows, in the old and in the new background. -/
def SameRows (N N' : Nat) (σ : Nat → Nat) (c c' : List Nat) : Prop :=
  ∃ P : Nat → Bool, c = (List.range N).filter P ∧ c' = (List.range N').filter fun j => P (σ j)

theorem flatten_replicate_filter {α : Type} (k : Nat) (l : List α) (p : α → Bool) :
    ((List.replicate k l).flatten).filter p = (List.replicate k (l.filter p)).flatten := by
  rw [List.filter_flatten, List.map_replicate]

theorem SameRows.perm {k N N' : Nat} {σ : Nat → Nat} (h : Repeats k N N' σ) {c c' : List Nat} (hc : SameRows N N' σ c c') :
    (c'.map σ).Perm (List.replicate k c).flatten := by
  obtain ⟨P, rfl, rfl⟩ := hc
  have e : ((List.range N').filter fun j => P (σ j)).map σ = ((List.range N').map σ).filter P := by
    rw [List.filter_map]; rfl
  rw [e, ← flatten_replicate_filter]
  exact h.perm.filter P

theorem SameRows.length {k N N' : Nat} {σ : Nat → Nat} (h : Repeats k N N' σ) {c c' : List Nat} (hc : SameRows N N' σ c c') :
    c'.length = k * c.length := by
  have := (hc.perm h).length_eq
  rw [List.length_map, List.length_flatten, List.map_replicate, List.sum_replicate, Nat.nsmul_eq_mul] at this
  exact this

theorem SameRows.sum {k N N' : Nat} {σ : Nat → Nat} (h : Repeats k N N' σ) {c c' : List Nat} (hc : SameRows N N' σ c c') (f : Nat → ℚ) :
    (c'.map fun j => f (σ j)).sum = k * (c.map f).sum := by
  have := ((hc.perm h).map f).sum_eq
  rw [List.map_map, List.map_flatten, List.sum_flatten, List.map_replicate, List.map_replicate, List.sum_replicate, nsmul_eq_mul] at this
  exact this

theorem SameRows.filter {N N' : Nat} {σ : Nat → Nat} {c c' : List Nat} (hc : SameRows N N' σ c c') (p : Nat → Bool) :
    SameRows N N' σ (c.filter p) (c'.filter fun j => p (σ j)) := by
  obtain ⟨P, rfl, rfl⟩ := hc
  exact ⟨fun i => p i && P i, by rw [List.filter_filter], by rw [List.filter_filter]⟩

theorem SameRows.range (N N' : Nat) (σ : Nat → Nat) : SameRows N N' σ (List.range N) (List.range N') :=
  ⟨fun _ => true, by simp, by simp⟩

/-- Walks in the same state. -/
structure SameState (N N' : Nat) (σ : Nat → Nat) (st st' : PState) : Prop where
  child : st'.child = st.child
  rule : st'.rule = st.rule
  rows : SameRows N N' σ st.rows st'.rows

variable {k N N' : Nat} {σ : Nat → Nat} {mem : Mem} {push : List Int → Int → List Int} {dir : Int → ℚ → Option Bool} {data : Nat → Row}
  {minSize : Nat}

theorem visitD_same {st st' : PState} (hs : SameState N N' σ st st') (n : Int) :
    SameState N N' σ (mem.visitD push dir data n st) (mem.visitD push dir (fun j => data (σ j)) n st') := by
  unfold Mem.visitD
  cases dir (mem.feat n) (mem.thr n) with
  | none => exact ⟨by simp [hs.child], hs.rule, hs.rows⟩
  | some b =>
    cases b with
    | true => exact ⟨by simp [hs.child], by simp [hs.rule], hs.rows.filter fun i => !decide (mem.thr n < data i (mem.feat n).toNat)⟩
    | false => exact ⟨by simp [hs.child], by simp [hs.rule], hs.rows.filter fun i => !decide (data i (mem.feat n).toNat ≤ mem.thr n)⟩

theorem scanD_same (h : Repeats k N N' σ) : ∀ (nodes : List Int) {st st' : PState}, SameState N N' σ st st' →
    SameState N N' σ (mem.scanD push dir data minSize nodes st) (mem.scanD push dir (fun j => data (σ j)) (k * minSize) nodes st')
  | [], _, _, hs => hs
  | n :: ns, st, st', hs => by
    have hv := visitD_same (mem := mem) (push := push) (dir := dir) (data := data) hs n
    unfold Mem.scanD
    simp only
    have hl := hv.rows.length h
    by_cases hc : (mem.visitD push dir data n st).rows.length < minSize
    · rw [if_pos hc, if_pos (by rw [hl]; exact Nat.mul_lt_mul_of_pos_left hc h.pos)]
      exact hv
    · rw [if_neg hc, if_neg (by rw [hl, not_lt]; exact Nat.mul_le_mul_left k (not_lt.1 hc))]
      exact scanD_same h ns hv

theorem levelsD_same (h : Repeats k N N' σ) : ∀ (d : Nat) (nodes : List Int) {st st' : PState}, SameState N N' σ st st' →
    SameState N N' σ (mem.levelsD push dir data minSize d nodes st) (mem.levelsD push dir (fun j => data (σ j)) (k * minSize) d nodes st')
  | 0, _, _, _, hs => hs
  | d + 1, nodes, st, st', hs => by
    have hv := scanD_same (mem := mem) (push := push) (dir := dir) (data := data) (minSize := minSize) h nodes hs
    unfold Mem.levelsD
    simp only [hv.child]
    exact levelsD_same h d _ hv

/-- **The walk of a forest**: same rule, and the same rows in every cell. -/
theorem forestRunD_same (h : Repeats k N N' σ) (maxDepth : Nat) : ∀ (mems : List Mem) (r : Rule),
    List.Forall₂ (SameRows N N' σ) (forestRunD push dir data minSize maxDepth N mems r).1
      (forestRunD push dir (fun j => data (σ j)) (k * minSize) maxDepth N' mems r).1 ∧
    (forestRunD push dir (fun j => data (σ j)) (k * minSize) maxDepth N' mems r).2 = (forestRunD push dir data minSize maxDepth N mems r).2
  | [], _ => ⟨.nil, rfl⟩
  | mem :: mems, r => by
    have hv := levelsD_same (mem := mem) (push := push) (dir := dir) (data := data) (minSize := minSize) h maxDepth [0]
      (st := ⟨[], List.range N, r⟩) (st' := ⟨[], List.range N', r⟩) ⟨rfl, rfl, SameRows.range N N' σ⟩
    have ih := forestRunD_same h maxDepth mems ((mem.levelsD push dir data minSize maxDepth [0] ⟨[], List.range N, r⟩).rule)
    unfold forestRunD Mem.runD
    simp only [hv.rule]
    exact ⟨.cons hv.rows ih.1, ih.2⟩

theorem cellSum_same (h : Repeats k N N' σ) {cells cells' : List (List Nat)} (hc : List.Forall₂ (SameRows N N' σ) cells cells')
    (f : Nat → ℚ) : cellSum cells' (fun j => f (σ j)) = cellSum cells f := by
  unfold cellSum
  rw [← hc.length_eq]
  generalize (cells.length : ℚ) = T
  induction hc with
  | nil => rfl
  | @cons c c' cs cs' h1 _ ih =>
    rw [List.map_cons, List.map_cons, List.sum_cons, List.sum_cons, ih]
    congr 1
    have e1 : (c'.map fun j => 1 / (T * c'.length) * f (σ j)).sum = 1 / (T * c'.length) * (c'.map fun j => f (σ j)).sum := by
      rw [List.sum_map_mul_left]
    have e2 : (c.map fun i => 1 / (T * c.length) * f i).sum = 1 / (T * c.length) * (c.map f).sum := by
      rw [List.sum_map_mul_left]
    rw [e1, e2, h1.sum h, h1.length h]
    have hk : (k : ℚ) ≠ 0 := Nat.cast_ne_zero.2 (Nat.pos_iff_ne_zero.1 h.pos)
    push_cast
    by_cases hz : T * (c.length : ℚ) = 0
    · have : T * ((k : ℚ) * c.length) = 0 := by rw [mul_left_comm, hz, mul_zero]
      rw [hz, this]; simp
    · rw [mul_left_comm T, one_div_mul_eq_div, one_div_mul_eq_div, mul_div_mul_left _ _ hk]

theorem weightsOf_same (h : Repeats k N N' σ) {cells cells' : List (List Nat)} (hc : List.Forall₂ (SameRows N N' σ) cells cells')
    {j : Nat} (hj : j < N') : weightsOf cells' j = weightsOf cells (σ j) / k := by
  unfold weightsOf
  rw [← hc.length_eq]
  generalize (cells.length : ℚ) = T
  induction hc with
  | nil => simp
  | @cons c c' cs cs' h1 _ ih =>
    rw [List.map_cons, List.map_cons, List.sum_cons, List.sum_cons, ih, add_div]
    congr 1
    have hcount : c'.count j = c.count (σ j) := by
      obtain ⟨P, rfl, rfl⟩ := h1
      by_cases hp : P (σ j) = true
      · rw [List.count_eq_one_of_mem (List.nodup_range.filter _) (by simp [hj, hp]),
          List.count_eq_one_of_mem (List.nodup_range.filter _) (by simp [h.lt j hj, hp])]
      · rw [List.count_eq_zero.2 (by simp [hp]), List.count_eq_zero.2 (by simp [hp])]
    rw [hcount, h1.length h]
    have hk : (k : ℚ) ≠ 0 := Nat.cast_ne_zero.2 (Nat.pos_iff_ne_zero.1 h.pos)
    push_cast
    rw [mul_left_comm T, mul_div_assoc, div_div, mul_comm (k : ℚ)]

/-! ## Leaf-based estimators -/

/-- Every count is multiplied by `k`. -/
def Scaled (k : Nat) (d d' : List Row) : Prop := ∀ p : Row → Bool, (d'.filter p).length = k * (d.filter p).length

theorem Multiplied.scaled {d d' : List Row} (h : Multiplied k d d') : Scaled k d d' := by
  intro p
  rw [(h.2.filter p).length_eq, flatten_replicate_filter, List.length_flatten, List.map_replicate, List.sum_replicate, Nat.nsmul_eq_mul]

theorem Scaled.filter {d d' : List Row} (h : Scaled k d d') (p : Row → Bool) : Scaled k (d.filter p) (d'.filter p) := by
  intro q
  rw [List.filter_filter, List.filter_filter]
  exact h _

theorem Scaled.length {d d' : List Row} (h : Scaled k d d') : d'.length = k * d.length := by
  have := h fun _ => true
  simpa using this

theorem Scaled.cnt {d d' : List Row} (h : Scaled k d d') (r : Rect) (S : List Nat) : cnt d' r S = k * cnt d r S := h _

theorem Scaled.cntCC {d d' : List Row} (h : Scaled k d d') (r : Rect) (S : List Nat) : cntCC d' r S = k * cntCC d r S := h _

theorem Scaled.cntCC2 {d d' : List Row} (h : Scaled k d d') (r r' : Rect) (S : List Nat) : cntCC2 d' r r' S = k * cntCC2 d r r' S := h _

theorem guardDiv_scale {c : ℚ} (hc : c ≠ 0) (a b : ℚ) : guardDiv (c * a) (c * b) = guardDiv a b := by
  unfold guardDiv
  by_cases hb : b = 0
  · simp [hb]
  · rw [if_pos (mul_ne_zero hc hb), if_pos hb, mul_div_mul_left _ _ hc]

theorem npDiv_scale {c : ℚ} (hc : c ≠ 0) (a b : ℚ) : npDiv (c * a) (c * b) = npDiv a b := by
  unfold npDiv
  by_cases hb : b = 0
  · simp [hb]
  · rw [if_neg (mul_ne_zero hc hb), if_neg hb, mul_div_mul_left _ _ hc]

end Acv
