import Verif.Props.Dominance
import Verif.Lemmas.Unused
import Verif.Props.Projected
import Mathlib.Tactic.LinearCombination

/-!
# C140: swing values of columns that the model does not use
-/

namespace Acv

/-- The test of `compute_sdp_swing` without its two early returns depends only on the used columns. -/
theorem swingWins_used {ts : List TreeArr} {m : Nat} (hts : ∀ t ∈ ts, WellFormed t m) (lab : Row → Nat) (data : List Row) (thr : ℚ) (x : Row)
    {S S' : List Nat} (hS : ∀ j, UsesColumn ts j → (j ∈ S' ↔ j ∈ S)) (h0 : S.length ≠ 0) (h0' : S'.length ≠ 0) (hm : S.length ≠ m)
    (hm' : S'.length ≠ m) : swingWins ts m lab data thr x S' = swingWins ts m lab data thr x S := by
  have key : ∀ rows : List Row, (sumLeaves ts (lab x) fun r v => if satCC r S' x then guardDiv (cntCC rows r (List.range m) * v) (cntCC rows r S') else 0) =
      sumLeaves ts (lab x) fun r v => if satCC r S x then guardDiv (cntCC rows r (List.range m) * v) (cntCC rows r S) else 0 := by
    intro rows
    unfold sumLeaves
    refine congrArg List.sum (List.map_congr_left fun t ht => congrArg List.sum (List.map_congr_left fun ℓ hℓ => ?_))
    have hr : ∀ j, ¬ UsesColumn ts j → t.leafRect ℓ j = Ival.all := fun j hj => leafRect_unused hts ht hℓ j hj
    have e : ∀ z, satCC (t.leafRect ℓ) S' z = satCC (t.leafRect ℓ) S z := fun z => satCC_used hr hS fun _ _ => rfl
    dsimp only
    unfold cntCC
    rw [e, show satCC (t.leafRect ℓ) S' = satCC (t.leafRect ℓ) S from funext e]
  unfold swingWins
  rw [if_neg hm, if_neg hm', if_neg h0, if_neg h0']
  simp only [key]

/-- What one might expect of a column that the model does not use: the swing value 0, as for `shap_values` (C09). -/
def C140_dummy : Prop :=
  ∀ (ts : List TreeArr) (m : Nat), (∀ t ∈ ts, WellFormed t m) → ∀ (lab : Row → Nat) (data : List Row) (thr : ℚ) (x : Row) (C : List (List Nat)),
    ValidGroups m C → (playerSet m C).card ≤ 32 → 2 ≤ (playerSet m C).card → ∀ g ∈ playerSet m C, (∀ s ∈ g, ¬ UsesColumn ts s) → ∀ j ∈ g,
      (swingSlow ts m lab data C thr x j).phi = 0

/-- **C140, the exact value**: the swing value of a player without a used column, among `n` players, is `1/n` if its columns alone reach
the threshold, plus `1/n` if all other columns together do not reach it. -/
theorem C140_value {ts : List TreeArr} {m : Nat} (hts : ∀ t ∈ ts, WellFormed t m) (lab : Row → Nat) (data : List Row) (thr : ℚ) (x : Row)
    {C : List (List Nat)} (hC : ValidGroups m C) (hlen : (playerSet m C).card ≤ 32) (h2 : 2 ≤ (playerSet m C).card) {g : List Nat}
    (hg : g ∈ playerSet m C) (hu : ∀ s ∈ g, ¬ UsesColumn ts s) {j : Nat} (hj : j ∈ g) :
    (swingSlow ts m lab data C thr x j).phi =
      (swingWins ts m lab data thr x g + (1 - swingWins ts m lab data thr x ((List.range m).filter fun s => decide (s ∉ g)))) / (playerSet m C).card := by
  have e : (swingSlow ts m lab data C thr x j).phi = shapley (playerSet m C) (winsOf ts m lab data thr x) g :=
    swing_shapley hC hlen (fun g hg sel hs => swing_diff_wins hC hg hs) hg hj
  have hgn := (playerSet_lt hC hg).2.1
  have hne : (∅ : Finset (List Nat)) ≠ (playerSet m C).erase g := by
    intro h
    have := congrArg Finset.card h
    rw [Finset.card_erase_of_mem hg, Finset.card_empty] at this
    omega
  have hins : insert g ((playerSet m C).erase g) = playerSet m C := Finset.insert_erase hg
  -- the four values
  have w0 : winsOf ts m lab data thr x ∅ = 0 := by
    have hm : m ≠ 0 := by
      rintro rfl
      exact absurd ((playerSet_lt hC hg).2.2 j hj) (by omega)
    unfold winsOf swingWins
    simp [colsOf, Ne.symm hm]
  have wg : winsOf ts m lab data thr x (insert g ∅) = swingWins ts m lab data thr x g := by
    rw [(winsOf_with ts lab data thr x hC (Finset.empty_subset _) hg (Finset.notMem_empty _)).2.2.2]
    simp [colsOf]
  have wP : winsOf ts m lab data thr x (playerSet m C) = 1 := by
    have := (colsOf_all_iff hC (Finset.Subset.refl _)).2 rfl
    unfold winsOf swingWins
    rw [Finset.length_toList, if_pos this]
  have wr : winsOf ts m lab data thr x ((playerSet m C).erase g) =
      swingWins ts m lab data thr x ((List.range m).filter fun s => decide (s ∉ g)) := by
    unfold winsOf
    refine swingWins_perm _ _ _ _ _ _ ((List.perm_ext_iff_of_nodup (Finset.nodup_toList _) (List.nodup_range.filter _)).2 fun s => ?_)
    rw [Finset.mem_toList, List.mem_filter, List.mem_range, decide_eq_true_eq]
    constructor
    · intro hs
      obtain ⟨c, hc, hsc⟩ := Finset.mem_biUnion.1 hs
      obtain ⟨h1, h2⟩ := Finset.mem_erase.1 hc
      have hsc' := List.mem_toFinset.1 hsc
      exact ⟨(playerSet_lt hC h2).2.2 s hsc', fun hsg => h1 (playerSet_disjoint hC h2 hg hsc' hsg)⟩
    · rintro ⟨h1, h2⟩
      obtain ⟨c, hc, hsc⟩ := playerSet_cover (C := C) h1
      exact Finset.mem_biUnion.2 ⟨c, Finset.mem_erase.2 ⟨fun e => h2 (e ▸ hsc), hc⟩, List.mem_toFinset.2 hsc⟩
  rw [e]
  unfold shapley
  rw [← Finset.sum_subset (s₁ := {∅, (playerSet m C).erase g})]
  · rw [Finset.sum_pair hne, hins, w0, wg, wP, wr, Finset.card_empty, Finset.card_erase_of_mem hg]
    have hn : ((playerSet m C).card : ℚ) ≠ 0 := by
      have : 0 < (playerSet m C).card := by omega
      exact_mod_cast this.ne'
    have a1 := shapW_empty (n := (playerSet m C).card) (by omega)
    have a2 := shapW_full (n := (playerSet m C).card) (by omega)
    rw [eq_div_iff hn]
    linear_combination (swingWins ts m lab data thr x g) * a1 +
      (1 - swingWins ts m lab data thr x ((List.range m).filter fun s => decide (s ∉ g))) * a2
  · intro S hS
    rw [Finset.mem_insert, Finset.mem_singleton] at hS
    rcases hS with rfl | rfl <;> simp
  · intro S hS hS'
    have hS1 := Finset.mem_powerset.1 hS
    have hSP := hS1.trans (Finset.erase_subset _ _)
    have hgS : g ∉ S := fun hc => Finset.notMem_erase g _ (hS1 hc)
    rw [Finset.mem_insert, Finset.mem_singleton, not_or] at hS'
    have hiP : insert g S ⊆ playerSet m C := Finset.insert_subset hg hSP
    have hfull : insert g S ≠ playerSet m C := fun h => hS'.2 (by rw [← h, Finset.erase_insert hgS])
    have hw : winsOf ts m lab data thr x (insert g S) = winsOf ts m lab data thr x S := by
      unfold winsOf
      refine swingWins_used hts lab data thr x (fun s hs => ?_) ?_ ?_ ?_ ?_
      · rw [Finset.mem_toList, Finset.mem_toList, colsOf_insert, Finset.mem_union, List.mem_toFinset]
        exact ⟨fun h => h.resolve_left fun hc => hu s hc hs, Or.inr⟩
      · rw [Finset.length_toList]
        exact fun h => hS'.1 ((colsOf_empty_iff hC hSP).1 h)
      · rw [Finset.length_toList]
        exact fun h => Finset.insert_ne_empty g S ((colsOf_empty_iff hC hiP).1 h)
      · rw [Finset.length_toList]
        intro h
        have := (colsOf_all_iff hC hSP).1 h
        exact hgS (this ▸ hg)
      · rw [Finset.length_toList]
        exact fun h => hfull ((colsOf_all_iff hC hiP).1 h)
    rw [hw, sub_self, mul_zero]

/-- **C140, when it vanishes**: the value is 0 if and only if the columns of the player alone do not reach the threshold and all others together
reach it. -/
theorem C140_zero {ts : List TreeArr} {m : Nat} (hts : ∀ t ∈ ts, WellFormed t m) (lab : Row → Nat) (data : List Row) (thr : ℚ) (x : Row)
    {C : List (List Nat)} (hC : ValidGroups m C) (hlen : (playerSet m C).card ≤ 32) (h2 : 2 ≤ (playerSet m C).card) {g : List Nat}
    (hg : g ∈ playerSet m C) (hu : ∀ s ∈ g, ¬ UsesColumn ts s) {j : Nat} (hj : j ∈ g) :
    (swingSlow ts m lab data C thr x j).phi = 0 ↔ swingWins ts m lab data thr x g = 0 ∧
      swingWins ts m lab data thr x ((List.range m).filter fun s => decide (s ∉ g)) = 1 := by
  rw [C140_value hts lab data thr x hC hlen h2 hg hu hj]
  have h01 : ∀ S, swingWins ts m lab data thr x S = 1 ∨ swingWins ts m lab data thr x S = 0 := by
    intro S
    unfold swingWins
    dsimp only
    split_ifs <;> simp
  have hn : ((playerSet m C).card : ℚ) ≠ 0 := by
    have : 0 < (playerSet m C).card := by omega
    exact_mod_cast this.ne'
  rw [div_eq_zero_iff, or_iff_left hn]
  rcases h01 g with a | a <;> rcases h01 ((List.range m).filter fun s => decide (s ∉ g)) with b | b <;> rw [a, b] <;> norm_num

theorem rootSplit_unused : ∀ s ∈ [1], ¬ UsesColumn [rootSplit] s := by
  have hf : ∀ n < rootSplit.size, 0 ≤ rootSplit.left n → rootSplit.feature n = 0 := by decide
  rintro s hs ⟨t, ht, n, hn, hl, hfj⟩
  rw [List.mem_singleton.1 ht] at hn hl hfj
  have h1 := hf n hn hl
  rw [List.mem_singleton.1 hs] at hfj
  omega

/-- **C140, unused columns can count**: column 1 is not used, its same decision probability alone is 1/2, and with the threshold 1/2 its swing value
among three columns is 1/3. -/
theorem C140_dummy_false : ¬ C140_dummy := by
  intro h
  have := h [rootSplit] 3 (by simpa using ⟨_, rootSplit_isTree⟩) (fun z => if z 0 ≤ 1 then 0 else 1)
    [fun _ => 0, fun j => if j = 0 then 2 else 0] (1 / 2) (fun _ => 0) [[]] (Or.inl rfl) (by decide) (by decide) [1] (by decide)
    rootSplit_unused 1 (by simp)
  revert this
  decide +kernel

/-- With the threshold 9/10 it is 0. -/
example : (swingSlow [rootSplit] 3 (fun z => if z 0 ≤ 1 then 0 else 1) [fun _ => 0, fun j => if j = 0 then 2 else 0] [[]] (9 / 10) (fun _ => 0) 1).phi = 0 ∧
    (swingSlow [rootSplit] 3 (fun z => if z 0 ≤ 1 then 0 else 1) [fun _ => 0, fun j => if j = 0 then 2 else 0] [[]] (1 / 2) (fun _ => 0) 1).phi = 1 / 3 := by
  refine ⟨by decide +kernel, by decide +kernel⟩

end Acv
