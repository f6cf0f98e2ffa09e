import Verif.Model.Comb
import Verif.Spec.Shapley
import Mathlib.Data.Nat.Choose.Basic
import Mathlib.Data.Nat.Choose.Sum
import Mathlib.Data.Nat.Factorial.BigOperators
import Mathlib.Algebra.BigOperators.Group.Finset.Basic
import Mathlib.Algebra.BigOperators.Field
import Mathlib.Tactic.Ring
import Mathlib.Tactic.FieldSimp
import Mathlib.Tactic.Linarith

namespace Acv

theorem combStep_choose {N j : Nat} (hj : j < N) : combStep N (N.choose j) (j + 1) = N.choose (j + 1) := by
  unfold combStep
  have h := Nat.choose_succ_right_eq N j
  have : N + 1 - (j + 1) = N - j := by omega
  rw [this, ← h, Nat.mul_div_cancel _ (Nat.succ_pos j)]

theorem combLoop (N n : Nat) (hn : n ≤ N) : (List.range' 1 n).foldl (combStep N) 1 = N.choose n := by
  induction n with
  | zero => simp
  | succ n ih =>
    rw [List.range'_concat, List.foldl_append, ih (by omega)]
    simp only [List.foldl_cons, List.foldl_nil, Nat.one_mul]
    rw [Nat.add_comm 1 n, combStep_choose (by omega)]

theorem combIntLong_eq {N k : Nat} (hN : N < ulongMax) : combIntLong N k = N.choose k := by
  unfold combIntLong
  by_cases hk : k > N
  · rw [if_pos (Or.inl hk), Nat.choose_eq_zero_of_lt hk]
  · rw [if_neg (by omega), combLoop N _ (by omega)]
    rcases Nat.le_total k (N - k) with h | h
    · rw [Nat.min_eq_left h]
    · rw [Nat.min_eq_right h, Nat.choose_symm (by omega)]

theorem binomialC_eq {N k : Nat} (hN : N < ulongMax) : binomialC N k = (N.choose k : ℚ) := by
  unfold binomialC
  simp only [combIntLong_eq hN]
  split
  · rfl
  · rename_i h; exact (not_not.mp h).symm

theorem shapW_eq {n s : Nat} (hs : s < n) : shapW n s = 1 / (n * (n - 1).choose s : ℚ) := by
  unfold shapW
  obtain ⟨k, rfl⟩ : ∃ k, n = k + 1 := ⟨n - 1, by omega⟩
  have h := Nat.choose_mul_factorial_mul_factorial (n := k) (k := s) (by omega)
  have h' : ((k.choose s : ℚ) * s.factorial * (k - s).factorial) = k.factorial := by exact_mod_cast h
  simp only [Nat.add_sub_cancel, Nat.factorial_succ, Nat.cast_mul]
  rw [← h']
  have h1 : (s.factorial : ℚ) ≠ 0 := by exact_mod_cast Nat.factorial_ne_zero s
  have h2 : ((k - s).factorial : ℚ) ≠ 0 := by exact_mod_cast Nat.factorial_ne_zero (k - s)
  have h3 : (k.choose s : ℚ) ≠ 0 := by
    have := Nat.choose_pos (show s ≤ k by omega); positivity
  have h4 : ((k + 1 : ℕ) : ℚ) ≠ 0 := by positivity
  field_simp

/-- Dropping one null player. -/
theorem shapW_pascal {n s : Nat} (hs : s < n) : shapW (n + 1) s + shapW (n + 1) (s + 1) = shapW n s := by
  unfold shapW
  have e1 : n + 1 - 1 - s = (n - 1 - s) + 1 := by omega
  have e2 : n + 1 - 1 - (s + 1) = n - 1 - s := by omega
  rw [e1, e2]
  have hn : ((n : ℚ)) = (n - 1 - s : ℕ) + 1 + s := by
    have : n = (n - 1 - s) + 1 + s := by omega
    exact_mod_cast this
  simp only [Nat.factorial_succ, Nat.cast_mul]
  have h1 : (n.factorial : ℚ) ≠ 0 := by exact_mod_cast Nat.factorial_ne_zero n
  have h2 : ((n + 1 : ℕ) : ℚ) ≠ 0 := by positivity
  field_simp
  push_cast
  rw [hn]
  ring

/-- Dropping `r` null players. -/
theorem shapW_sum (k r s : Nat) (hs : s < k) :
    (Finset.range (r + 1)).sum (fun l => (r.choose l : ℚ) * shapW (k + r) (s + l)) = shapW k s := by
  induction r generalizing k with
  | zero => simp
  | succ r ih =>
    have ih' := ih k hs
    rw [← ih']
    have : ∀ l ∈ Finset.range (r + 1), (r.choose l : ℚ) * shapW (k + r) (s + l)
        = (r.choose l : ℚ) * shapW (k + r + 1) (s + l) + (r.choose l : ℚ) * shapW (k + r + 1) (s + l + 1) := by
      intro l hl
      rw [← mul_add, shapW_pascal]
      have := Finset.mem_range.mp hl; omega
    rw [Finset.sum_congr rfl this, Finset.sum_add_distrib, Finset.sum_range_succ', Finset.sum_range_succ]
    simp only [Nat.choose_succ_succ, Nat.cast_add, add_mul, Finset.sum_add_distrib]
    have e : k + (r + 1) = k + r + 1 := by omega
    simp only [e, Nat.choose_self, Nat.choose_succ_self, Nat.choose_zero_right, Nat.cast_zero, zero_mul, add_zero]
    rw [Finset.sum_range_succ' (fun l => (r.choose l : ℚ) * shapW (k + r + 1) (s + l)),
      Finset.sum_range_succ (fun l => (r.choose l : ℚ) * shapW (k + r + 1) (s + l + 1))]
    simp only [Nat.choose_self, Nat.choose_zero_right, add_zero, ← Nat.add_assoc]
    ring

theorem foldl_guard_sum (l : List Nat) (g : Nat → ℚ) (f : Nat → ℚ) (c : ℚ) (hg : ∀ a ∈ l, g a ≠ 0) :
    l.foldl (fun acc a => if g a ≠ 0 then acc + f a else 0) c = c + (l.map f).sum := by
  induction l generalizing c with
  | nil => simp
  | cons a l ih =>
    rw [List.foldl_cons, if_pos (hg a (by simp)), ih _ (fun b hb => hg b (by simp [hb]))]
    simp [add_assoc]

/-- The coefficient of the leaf estimator, divided by the number `m` of columns, is the Shapley weight among the
players of the leaf only, whatever `m`. -/
theorem coef_eq {m k s : Nat} (hk : k < m) (hs : s ≤ k) (hm : m < ulongMax) :
    (coefZero m s + coefLoop m k s) / m = shapW (k + 1) s := by
  have hm1 : m - 1 < ulongMax := by omega
  have hmk : m - k - 1 < ulongMax := by omega
  have hpos : ∀ l, l ≤ m - k - 1 → ((m - 1).choose (l + s) : ℚ) ≠ 0 := by
    intro l hl
    have := Nat.choose_pos (show l + s ≤ m - 1 by omega)
    positivity
  unfold coefZero coefLoop
  simp only [binomialC_eq hm1, binomialC_eq hmk]
  have h0 := hpos 0 (by omega)
  rw [Nat.zero_add] at h0
  rw [if_pos h0, foldl_guard_sum _ _ _ _ (by
    intro a ha; rw [List.mem_range'] at ha; obtain ⟨i, hi, rfl⟩ := ha; exact hpos _ (by omega)), zero_add]
  have hsum := shapW_sum (k + 1) (m - k - 1) s (by omega)
  have e : k + 1 + (m - k - 1) = m := by omega
  rw [e] at hsum
  rw [← hsum, Finset.sum_range_succ']
  have hW : ∀ l, l ≤ m - k - 1 → shapW m (s + l) = 1 / (m * ((m - 1).choose (l + s) : ℚ)) := by
    intro l hl; rw [shapW_eq (by omega), Nat.add_comm s l]
  have hm0 : (m : ℚ) ≠ 0 := by
    have : 0 < m := by omega
    positivity
  rw [add_div, hW 0 (by omega), add_comm]
  congr 1
  · rw [List.range'_eq_map_range, List.map_map]
    rw [← List.sum_toFinset _ (List.nodup_range)]
    have : (List.range (m - k - 1)).toFinset = Finset.range (m - k - 1) := by ext; simp
    rw [this, Finset.sum_div]
    apply Finset.sum_congr rfl
    intro l hl
    have hl' := Finset.mem_range.mp hl
    rw [hW (l + 1) (by omega)]
    simp only [Function.comp]
    have := hpos (l + 1) (by omega)
    rw [Nat.add_comm 1 l]
    field_simp
  · simp only [Nat.choose_zero_right, Nat.zero_add]
    field_simp
    simp

end Acv
