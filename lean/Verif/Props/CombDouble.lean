import Verif.Model.CombDouble
import Verif.Lemmas.Comb
import Mathlib.Data.Nat.Choose.Central

/-!
# C14 in double precision
-/

namespace Acv

/-- A rounding that keeps the integers up to `2 ^ 53`. -/
def KeepsIntegers (rnd : ℚ → ℚ) : Prop := ∀ n : Nat, n ≤ 2 ^ 53 → rnd n = n

theorem roundEven_int (z : Int) : roundEven z = z := by
  unfold roundEven
  have : (z : ℚ).floor = z := Rat.floor_intCast z
  simp only [this, sub_self]
  rw [if_pos (by norm_num)]

/-- Double precision is such a rounding. -/
theorem toDouble_keeps : KeepsIntegers toDouble := by
  intro n hn
  unfold toDouble
  rcases Nat.eq_zero_or_pos n with rfl | hpos
  · simp
  · have hq : ¬ (n : ℚ) ≤ 0 := by
      rw [not_le]
      exact_mod_cast hpos
    rw [if_neg hq, Int.log_natCast]
    set e := Nat.log 2 n with he
    have h2 : (2 : ℚ) ^ ((e : Int) - 52) ≠ 0 := zpow_ne_zero _ (by norm_num)
    have hz : ∃ z : Int, (n : ℚ) / 2 ^ ((e : Int) - 52) = z := by
      by_cases h : e ≤ 52
      · refine ⟨n * 2 ^ (52 - e), ?_⟩
        have : ((e : Int) - 52) = -((52 - e : Nat) : Int) := by omega
        rw [this, zpow_neg, div_inv_eq_mul, zpow_natCast]
        push_cast
        ring
      · have hle : 2 ^ e ≤ n := Nat.pow_log_le_self 2 (by omega)
        have h53 : e = 53 := by
          have : 2 ^ e ≤ 2 ^ 53 := le_trans hle hn
          have := (Nat.pow_le_pow_iff_right (a := 2) (by norm_num)).1 this
          omega
        rw [h53] at hle
        have hn' : n = 2 ^ 53 := le_antisymm hn hle
        refine ⟨2 ^ 52, ?_⟩
        rw [hn', h53]
        norm_num
    obtain ⟨z, hz⟩ := hz
    rw [hz, roundEven_int, ← hz, div_mul_cancel₀ _ h2]

theorem choose_mul_le {N i k : Nat} (hik : i + 1 ≤ k) (hk : 2 * k ≤ N) : N.choose (i + 1) * (i + 1) ≤ N.choose k * k := by
  refine Nat.mul_le_mul ?_ hik
  induction k, hik using Nat.le_induction with
  | base => exact le_refl _
  | succ k h ih => exact le_trans (ih (by omega)) (Nat.choose_le_succ_of_lt_half_left (by omega))

theorem combStepRnd_choose {rnd : ℚ → ℚ} (hr : KeepsIntegers rnd) {N i : Nat} (hi : i < N) (hN : N ≤ 2 ^ 53)
    (hb : N.choose (i + 1) * (i + 1) ≤ 2 ^ 53) : combStepRnd rnd N (N.choose i) (i + 1) = N.choose (i + 1) := by
  unfold combStepRnd
  have e1 : N + 1 - (i + 1) = N - i := by omega
  have h := Nat.choose_succ_right_eq N i
  rw [e1, hr (N - i) (by omega), ← Nat.cast_mul, ← h, hr _ hb, hr (i + 1) (by omega), Nat.cast_mul, mul_div_cancel_right₀]
  · rw [hr]
    · have : ((N.choose (i + 1) : Nat) : ℚ).floor = N.choose (i + 1) := by
        rw [← Int.cast_natCast, Rat.floor_intCast]
      rw [this, Int.cast_natCast]
    · exact le_trans (Nat.le_mul_of_pos_right _ (by omega)) hb
  · exact_mod_cast Nat.succ_ne_zero i

theorem combLoopRnd {rnd : ℚ → ℚ} (hr : KeepsIntegers rnd) {N : Nat} (hN : N ≤ 2 ^ 53) (n : Nat) (hn : 2 * n ≤ N)
    (hb : N.choose n * n ≤ 2 ^ 53) : ∀ i ≤ n, (List.range' 1 i).foldl (combStepRnd rnd N) 1 = N.choose i
  | 0, _ => by simp
  | i + 1, hi => by
    rw [List.range'_concat, List.foldl_append, combLoopRnd hr hN n hn hb i (by omega)]
    simp only [List.foldl_cons, List.foldl_nil, Nat.one_mul]
    rw [Nat.add_comm 1 i, combStepRnd_choose hr (by omega) hN (le_trans (choose_mul_le hi hn) hb)]

/-- **C14, with rounding.** Computed with any rounding that keeps the integers up to `2 ^ 53`, the routine returns the exact binomial coefficient as
long as the coefficient times the number of passes of the loop is at most `2 ^ 53`, and 0 if `k > N`. -/
theorem C14_rounded {rnd : ℚ → ℚ} (hr : KeepsIntegers rnd) {N k : Nat} (hN : N ≤ 2 ^ 53) (hb : N.choose k * min k (N - k) ≤ 2 ^ 53) :
    combRnd rnd N k = N.choose k := by
  unfold combRnd
  have hu : N ≠ ulongMax := by unfold ulongMax; omega
  by_cases hk : k > N
  · rw [if_pos (Or.inl hk), Nat.choose_eq_zero_of_lt hk, Nat.cast_zero]
  · rw [if_neg (by omega)]
    rcases Nat.le_total k (N - k) with h | h
    · rw [Nat.min_eq_left h] at hb ⊢
      exact combLoopRnd hr hN k (by omega) hb k (le_refl _)
    · rw [Nat.min_eq_right h] at hb ⊢
      rw [← Nat.choose_symm (by omega : k ≤ N)] at hb ⊢
      exact combLoopRnd hr hN (N - k) (by omega) hb (N - k) (le_refl _)

theorem small_products : ∀ N < 52, ∀ k < N + 1, combIntLong N k * min k (N - k) ≤ 2 ^ 53 := by decide +kernel

/-- **C14, double precision.** In double precision the routine is exact for every `N` up to 51 and every `k`: the Shapley weights of up to 52 players
are built from exact binomial coefficients. -/
theorem C14_double {N : Nat} (hN : N ≤ 51) (k : Nat) : combRnd toDouble N k = N.choose k ∧ binomialD N k = binomialC N k := by
  have h1 : combRnd toDouble N k = N.choose k := by
    refine C14_rounded toDouble_keeps (by omega) ?_
    by_cases hk : k ≤ N
    · rw [← combIntLong_eq (by unfold ulongMax; omega)]
      exact small_products N (by omega) k (by omega)
    · rw [Nat.choose_eq_zero_of_lt (by omega)]
      omega
  refine ⟨h1, ?_⟩
  unfold binomialD
  rw [binomialC_eq (by unfold ulongMax; omega), h1]
  dsimp only
  split
  · rfl
  · rename_i h; exact (not_not.mp h).symm

/-- The claim of C14 in double precision without a bound: no result is off by one. -/
def C14_double_claim : Prop := ∀ N k : Nat, N < ulongMax → |combRnd toDouble N k - N.choose k| < 1

/-- **C14, beyond.** Without the bound the claim fails: for `N = 55`, `k = 26` the quotient of a rounded product is floored and the result is one less
than the coefficient, although the coefficient is a `double`. -/
theorem C14_double_false : ¬ C14_double_claim ∧ combRnd toDouble 55 26 = 3560597348629859 ∧ Nat.choose 55 26 = 3560597348629860 ∧
    toDouble 3560597348629860 = 3560597348629860 := by
  have h1 : combRnd toDouble 55 26 = 3560597348629859 := by decide +kernel
  have h2 : Nat.choose 55 26 = 3560597348629860 := by
    rw [← combIntLong_eq (by unfold ulongMax; omega)]
    decide +kernel
  refine ⟨fun h => ?_, h1, h2, toDouble_keeps 3560597348629860 (by norm_num)⟩
  have := h 55 26 (by unfold ulongMax; omega)
  rw [h1, h2] at this
  norm_num at this

/-- The bound of `C14_rounded` is met by coefficients that use most of the 53 bits. -/
example : Nat.choose 51 25 * min 25 26 ≤ 2 ^ 53 ∧ 2 ^ 52 < Nat.choose 51 25 * min 25 26 := by
  rw [← combIntLong_eq (by unfold ulongMax; omega)]
  decide +kernel

end Acv
