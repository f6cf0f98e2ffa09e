import Verif.Lemmas.Comb
import Mathlib.Algebra.BigOperators.Group.Finset.Powerset
import Mathlib.Algebra.BigOperators.Group.Finset.Sigma

namespace Acv

variable {ι : Type} [DecidableEq ι]

/-- adding a player that never matters does not change the value of the others -/
theorem shapley_insert_null {P : Finset ι} {v : Finset ι → ℚ} {i a : ι} (ha : a ∉ P) (hi : i ∈ P)
    (hnull : ∀ S, v (insert a S) = v S) : shapley (insert a P) v i = shapley P v i := by
  unfold shapley
  have hai : a ≠ i := fun h => ha (h ▸ hi)
  have he : (insert a P).erase i = insert a (P.erase i) := by
    rw [Finset.erase_insert_of_ne hai]
  have ha' : a ∉ P.erase i := fun h => ha (Finset.mem_of_mem_erase h)
  rw [he, Finset.sum_powerset_insert ha', ← Finset.sum_add_distrib]
  apply Finset.sum_congr rfl
  intro S hS
  have hSP := Finset.mem_powerset.mp hS
  have haS : a ∉ S := fun h => ha' (hSP h)
  have hc : (insert a S).card = S.card + 1 := Finset.card_insert_of_notMem haS
  have hP : (insert a P).card = P.card + 1 := Finset.card_insert_of_notMem ha
  have hlt : S.card < P.card := by
    have h1 := Finset.card_le_card hSP
    rw [Finset.card_erase_of_mem hi] at h1
    have : 0 < P.card := Finset.card_pos.mpr ⟨i, hi⟩
    omega
  rw [Finset.insert_comm, hnull, hnull, hc, hP, ← add_mul, shapW_pascal hlt]

/-- the Shapley value only depends on the players that matter -/
theorem shapley_restrict {P L : Finset ι} {v : Finset ι → ℚ} {i : ι} (hLP : L ⊆ P) (hi : i ∈ L)
    (hnull : ∀ a ∈ P, a ∉ L → ∀ S, v (insert a S) = v S) : shapley P v i = shapley L v i := by
  have key : ∀ D : Finset ι, D ⊆ P → Disjoint L D → shapley (D ∪ L) v i = shapley L v i := by
    intro D
    induction D using Finset.induction_on with
    | empty => simp
    | insert a D ha ih =>
      intro hDP hd
      have hd' := Finset.disjoint_insert_right.mp hd
      have hDP' := Finset.insert_subset_iff.mp hDP
      rw [Finset.insert_union, shapley_insert_null (a := a) (by
        rw [Finset.mem_union]; rintro (h | h); exacts [ha h, hd'.1 h])
        (Finset.mem_union_right _ hi) (hnull a hDP'.1 hd'.1), ih hDP'.2 hd'.2]
  have : P = (P \ L) ∪ L := (Finset.sdiff_union_of_subset hLP).symm
  rw [this]
  exact key _ Finset.sdiff_subset Finset.disjoint_sdiff

/-- a player that never matters gets 0 -/
theorem shapley_null {P : Finset ι} {v : Finset ι → ℚ} {i : ι} (hnull : ∀ S, v (insert i S) = v S) :
    shapley P v i = 0 := by
  unfold shapley
  apply Finset.sum_eq_zero
  intro S _
  rw [hnull]; simp

theorem shapley_sum {κ : Type} (P : Finset ι) (l : List κ) (v : κ → Finset ι → ℚ) (i : ι) :
    shapley P (fun S => (l.map (fun a => v a S)).sum) i = (l.map (fun a => shapley P (v a) i)).sum := by
  induction l with
  | nil => simp [shapley]
  | cons a l ih =>
    simp only [List.map_cons, List.sum_cons]
    rw [← ih]
    unfold shapley
    rw [← Finset.sum_add_distrib]
    apply Finset.sum_congr rfl
    intro S _
    ring

theorem shapley_mul (P : Finset ι) (c : ℚ) (v : Finset ι → ℚ) (i : ι) :
    shapley P (fun S => c * v S) i = c * shapley P v i := by
  unfold shapley
  rw [Finset.mul_sum]
  apply Finset.sum_congr rfl
  intro S _
  ring

theorem shapW_balance {n k : Nat} (h0 : 0 < k) (hn : k < n) :
    (k : ℚ) * shapW n (k - 1) = (n - k : ℕ) * shapW n k := by
  unfold shapW
  obtain ⟨j, rfl⟩ : ∃ j, k = j + 1 := ⟨k - 1, by omega⟩
  obtain ⟨r, rfl⟩ : ∃ r, n = j + 1 + r + 1 := ⟨n - j - 2, by omega⟩
  have e1 : j + 1 + r + 1 - 1 - (j + 1 - 1) = r + 1 := by omega
  have e2 : j + 1 + r + 1 - 1 - (j + 1) = r := by omega
  have e3 : j + 1 + r + 1 - (j + 1) = r + 1 := by omega
  rw [e1, e2, e3, Nat.add_sub_cancel]
  simp only [Nat.factorial_succ r, Nat.factorial_succ j]
  push_cast
  ring

theorem shapW_full {n : Nat} (hn : 0 < n) : (n : ℚ) * shapW n (n - 1) = 1 := by
  obtain ⟨j, rfl⟩ : ∃ j, n = j + 1 := ⟨n - 1, by omega⟩
  unfold shapW
  have h1 : (j.factorial : ℚ) ≠ 0 := by exact_mod_cast Nat.factorial_ne_zero j
  have h2 : ((j : ℚ) + 1) ≠ 0 := by positivity
  simp [Nat.factorial_succ]
  field_simp

theorem shapW_empty {n : Nat} (hn : 0 < n) : (n : ℚ) * shapW n 0 = 1 := by
  obtain ⟨j, rfl⟩ : ∃ j, n = j + 1 := ⟨n - 1, by omega⟩
  unfold shapW
  have h1 : (j.factorial : ℚ) ≠ 0 := by exact_mod_cast Nat.factorial_ne_zero j
  have h2 : ((j : ℚ) + 1) ≠ 0 := by positivity
  simp [Nat.factorial_succ]
  field_simp

/-- efficiency -/
theorem shapley_efficiency (P : Finset ι) (v : Finset ι → ℚ) :
    ∑ i ∈ P, shapley P v i = v P - v ∅ := by
  rcases Finset.eq_empty_or_nonempty P with rfl | hP
  · simp
  have hn : 0 < P.card := Finset.card_pos.mpr hP
  unfold shapley
  simp only [mul_sub, Finset.sum_sub_distrib]
  have h1 : ∑ i ∈ P, ∑ S ∈ (P.erase i).powerset, shapW P.card S.card * v (insert i S)
      = ∑ T ∈ P.powerset, ∑ i ∈ T, shapW P.card (T.card - 1) * v T := by
    rw [Finset.sum_sigma', Finset.sum_sigma']
    refine Finset.sum_bij' (fun a _ => ⟨insert a.1 a.2, a.1⟩) (fun b _ => ⟨b.2, b.1.erase b.2⟩) ?_ ?_ ?_ ?_ ?_
    · rintro ⟨i, S⟩ h
      simp only [Finset.mem_sigma, Finset.mem_powerset] at h ⊢
      exact ⟨Finset.insert_subset h.1 (h.2.trans (Finset.erase_subset _ _)), Finset.mem_insert_self _ _⟩
    · rintro ⟨T, i⟩ h
      simp only [Finset.mem_sigma, Finset.mem_powerset] at h ⊢
      exact ⟨h.1 h.2, Finset.erase_subset_erase _ h.1⟩
    · rintro ⟨i, S⟩ h
      simp only [Finset.mem_sigma, Finset.mem_powerset] at h ⊢
      have : i ∉ S := fun hi => Finset.notMem_erase i P (h.2 hi)
      simp [Finset.erase_insert this]
    · rintro ⟨T, i⟩ h
      simp only [Finset.mem_sigma, Finset.mem_powerset] at h ⊢
      simp [Finset.insert_erase h.2]
    · rintro ⟨i, S⟩ h
      simp only [Finset.mem_sigma, Finset.mem_powerset] at h ⊢
      have : i ∉ S := fun hi => Finset.notMem_erase i P (h.2 hi)
      simp [Finset.card_insert_of_notMem this]
  have h2 : ∑ i ∈ P, ∑ S ∈ (P.erase i).powerset, shapW P.card S.card * v S
      = ∑ T ∈ P.powerset, ∑ i ∈ P \ T, shapW P.card T.card * v T := by
    apply Finset.sum_comm'
    intro i S
    simp only [Finset.mem_powerset, Finset.mem_sdiff, Finset.subset_erase]
    tauto
  rw [h1, h2, ← Finset.sum_sub_distrib]
  have h3 : ∀ T ∈ P.powerset, (∑ i ∈ T, shapW P.card (T.card - 1) * v T - ∑ i ∈ P \ T, shapW P.card T.card * v T)
      = (if T = P then v P else 0) - (if T = ∅ then v ∅ else 0) := by
    intro T hT
    have hTP := Finset.mem_powerset.mp hT
    have hcard := Finset.card_le_card hTP
    rw [Finset.sum_const, Finset.sum_const, nsmul_eq_mul, nsmul_eq_mul, Finset.card_sdiff_of_subset hTP]
    by_cases hf : T = P
    · subst hf
      have hne : T ≠ ∅ := Finset.nonempty_iff_ne_empty.mp hP
      rw [if_pos rfl, if_neg hne, Nat.sub_self, ← mul_assoc, shapW_full hn]
      simp
    · by_cases he : T = ∅
      · subst he
        rw [if_neg hf, if_pos rfl, Finset.card_empty, Nat.sub_zero, ← mul_assoc, ← mul_assoc, shapW_empty hn]
        simp
      · rw [if_neg hf, if_neg he, ← mul_assoc, ← mul_assoc]
        have hlt : T.card < P.card := Finset.card_lt_card (lt_of_le_of_ne hTP hf)
        have hpos : 0 < T.card := Finset.card_pos.mpr (Finset.nonempty_iff_ne_empty.mpr he)
        rw [shapW_balance hpos hlt]
        simp
  rw [Finset.sum_congr rfl h3, Finset.sum_sub_distrib, Finset.sum_ite_eq', Finset.sum_ite_eq']
  simp

end Acv
