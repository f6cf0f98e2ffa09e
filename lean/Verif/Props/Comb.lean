import Verif.Lemmas.Comb

/-!
# C14: binomial weights
-/

namespace Acv

/-- **C14.** The binomial routine returns the binomial coefficient for every pair of machine integers (0 when `k > N`),
and at every iteration the integer division is exact. `2^64 - 1` itself is the value the code rejects. -/
theorem C14_binomial_exact {N k : Nat} (hN : N < 18446744073709551615) :
    combIntLong N k = N.choose k ∧ (k > N → combIntLong N k = 0) ∧
    ∀ j, 1 ≤ j → j ≤ min k (N - k) →
      j ∣ (List.range' 1 (j - 1)).foldl (combStep N) 1 * (N + 1 - j) := by
  have hN' : N < ulongMax := by unfold ulongMax; omega
  refine ⟨combIntLong_eq hN', fun h => by rw [combIntLong_eq hN', Nat.choose_eq_zero_of_lt h], ?_⟩
  intro j h1 h2
  rw [combLoop N (j - 1) (by omega)]
  obtain ⟨i, rfl⟩ : ∃ i, j = i + 1 := ⟨j - 1, by omega⟩
  have h := Nat.choose_succ_right_eq N i
  have e : N + 1 - (i + 1) = N - i := by omega
  rw [Nat.add_sub_cancel, e, ← h]
  exact Dvd.intro_left _ rfl

example : 10 < 18446744073709551615 ∧ combIntLong 10 7 = 120 ∧ combIntLong 3 5 = 0 := by decide +kernel

/-- The rejected argument: the routine returns 0 for `N = ULONG_MAX` although `C(N, 0) = 1`. -/
theorem C14_rejected_argument : combIntLong 18446744073709551615 0 = 0 ∧ Nat.choose 18446744073709551615 0 = 1 := by
  refine ⟨by simp [combIntLong, ulongMax], by simp⟩

end Acv
