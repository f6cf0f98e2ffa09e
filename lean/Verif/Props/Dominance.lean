import Verif.Props.ShapExp
import Verif.Props.Range
import Verif.Props.Normalized
import Verif.Props.Swing
import Verif.Props.Projected

/-!
# C138: larger effects get larger Shapley values

A user reads the sign and the order of Shapley values as the sign and the order of the effects of the columns.
-/

namespace Acv

/-- A player whose arrival changes the second game at least as much as the first, whoever is there, has a larger value in it. -/
theorem shapley_le_of_changes {ι : Type} [DecidableEq ι] {P : Finset ι} {v w : Finset ι → ℚ} {i : ι}
    (h : ∀ S, S ⊆ P → i ∉ S → v (insert i S) - v S ≤ w (insert i S) - w S) : shapley P v i ≤ shapley P w i := by
  unfold shapley
  refine Finset.sum_le_sum fun S hS => mul_le_mul_of_nonneg_left ?_ (shapW_nonneg _ _)
  have hS' := Finset.mem_powerset.1 hS
  exact h S (hS'.trans (Finset.erase_subset _ _)) fun hc => Finset.notMem_erase i P (hS' hc)

/-- A value lies between the smallest and the largest change. -/
theorem shapley_between {ι : Type} [DecidableEq ι] {P : Finset ι} {v : Finset ι → ℚ} {i : ι} (hi : i ∈ P) {lo hi' : ℚ}
    (h : ∀ S, S ⊆ P → i ∉ S → lo ≤ v (insert i S) - v S ∧ v (insert i S) - v S ≤ hi') :
    lo ≤ shapley P v i ∧ shapley P v i ≤ hi' := by
  have hS : ∀ S ∈ (P.erase i).powerset, lo ≤ v (insert i S) - v S ∧ v (insert i S) - v S ≤ hi' := by
    intro S hS
    have hS' := Finset.mem_powerset.1 hS
    exact h S (hS'.trans (Finset.erase_subset _ _)) fun hc => Finset.notMem_erase i P (hS' hc)
  have e : ∀ c : ℚ, c = ∑ S ∈ (P.erase i).powerset, shapW P.card S.card * c := by
    intro c
    rw [← Finset.sum_mul, shapW_total hi, one_mul]
  constructor
  · rw [e lo]
    exact Finset.sum_le_sum fun S h' => mul_le_mul_of_nonneg_left (hS S h').1 (shapW_nonneg _ _)
  · rw [e hi']
    exact Finset.sum_le_sum fun S h' => mul_le_mul_of_nonneg_left (hS S h').2 (shapW_nonneg _ _)

/-- Of two players, the one with which every coalition of the others is worth more has the larger value. -/
theorem shapley_dominates {ι : Type} [DecidableEq ι] {P : Finset ι} {v : Finset ι → ℚ} {i j : ι} (hi : i ∈ P) (hj : j ∈ P)
    (h : ∀ S, S ⊆ P → i ∉ S → j ∉ S → v (insert i S) ≤ v (insert j S)) : shapley P v i ≤ shapley P v j := by
  rcases eq_or_ne i j with rfl | hij
  · exact le_rfl
  have hiQ : i ∉ (P.erase i).erase j := by simp
  have hjQ : j ∉ (P.erase i).erase j := by simp
  have e1 : P.erase i = insert j ((P.erase i).erase j) := (Finset.insert_erase (Finset.mem_erase.2 ⟨hij.symm, hj⟩)).symm
  have e2 : P.erase j = insert i ((P.erase i).erase j) := by
    rw [Finset.erase_right_comm]
    exact (Finset.insert_erase (Finset.mem_erase.2 ⟨hij, hi⟩)).symm
  unfold shapley
  rw [e1, e2, Finset.sum_powerset_insert hjQ, Finset.sum_powerset_insert hiQ]
  refine add_le_add (Finset.sum_le_sum fun S hS => ?_) (Finset.sum_le_sum fun S hS => ?_)
  · have hS' := Finset.mem_powerset.1 hS
    have := h S (hS'.trans ((Finset.erase_subset _ _).trans (Finset.erase_subset _ _))) (fun hc => hiQ (hS' hc)) (fun hc => hjQ (hS' hc))
    exact mul_le_mul_of_nonneg_left (by linarith) (shapW_nonneg _ _)
  · have hS' := Finset.mem_powerset.1 hS
    have hc1 : (insert j S).card = (insert i S).card := by
      rw [Finset.card_insert_of_notMem (fun hc => hjQ (hS' hc)), Finset.card_insert_of_notMem (fun hc => hiQ (hS' hc))]
    have := h S (hS'.trans ((Finset.erase_subset _ _).trans (Finset.erase_subset _ _))) (fun hc => hiQ (hS' hc)) (fun hc => hjQ (hS' hc))
    rw [hc1, Finset.insert_comm i j S]
    exact mul_le_mul_of_nonneg_left (by linarith) (shapW_nonneg _ _)

section Leaf

variable {ts ts' : List TreeArr} {m : Nat} {data data' : List Row} {C : List (List Nat)}

/-- **C138, order of the columns**: if every coalition of other players is worth at least as much with `h` as with `g`, the columns of
`h` get at least the value of the columns of `g`. -/
theorem C138_dominance (hts : ∀ t ∈ ts, WellFormed t m) (hdata : data ≠ []) (hC : ValidGroups m C) (hm : m < ulongMax) (x : Row) (k : Nat)
    {g h : List Nat} (hg : g ∈ playerSet m C) (hh : h ∈ playerSet m C)
    (hle : ∀ S, S ⊆ playerSet m C → g ∉ S → h ∉ S → leafGame ts m data x k (insert g S) ≤ leafGame ts m data x k (insert h S))
    {i j : Nat} (hi : i ∈ g) (hj : j ∈ h) : shapCy ts m data C x i k ≤ shapCy ts m data C x j k := by
  rw [C06_leaf_estimator_is_shapley_value hts hdata hC hm x k hg hi, C06_leaf_estimator_is_shapley_value hts hdata hC hm x k hh hj]
  exact shapley_dominates hg hh hle

/-- **C138, sign and size**: a value lies between the smallest and the largest change its player makes. With `lo = 0` or `hi = 0` this is
its sign. -/
theorem C138_bounds (hts : ∀ t ∈ ts, WellFormed t m) (hdata : data ≠ []) (hC : ValidGroups m C) (hm : m < ulongMax) (x : Row) (k : Nat)
    {g : List Nat} (hg : g ∈ playerSet m C) {lo hi : ℚ}
    (hle : ∀ S, S ⊆ playerSet m C → g ∉ S → lo ≤ leafGame ts m data x k (insert g S) - leafGame ts m data x k S ∧
      leafGame ts m data x k (insert g S) - leafGame ts m data x k S ≤ hi)
    {j : Nat} (hj : j ∈ g) : lo ≤ shapCy ts m data C x j k ∧ shapCy ts m data C x j k ≤ hi := by
  rw [C06_leaf_estimator_is_shapley_value hts hdata hC hm x k hg hj]
  exact shapley_between hg hle

/-- **C138, two models, backgrounds, observations or outputs**: a column whose player changes the second at least as much as the first,
whatever is known, gets at least as large a value in it. -/
theorem C138_compare (hts : ∀ t ∈ ts, WellFormed t m) (hts' : ∀ t ∈ ts', WellFormed t m) (hdata : data ≠ []) (hdata' : data' ≠ [])
    (hC : ValidGroups m C) (hm : m < ulongMax) (x x' : Row) (k k' : Nat) {g : List Nat} (hg : g ∈ playerSet m C)
    (hle : ∀ S, S ⊆ playerSet m C → g ∉ S → leafGame ts m data x k (insert g S) - leafGame ts m data x k S ≤
      leafGame ts' m data' x' k' (insert g S) - leafGame ts' m data' x' k' S)
    {j : Nat} (hj : j ∈ g) : shapCy ts m data C x j k ≤ shapCy ts' m data' C x' j k' := by
  rw [C06_leaf_estimator_is_shapley_value hts hdata hC hm x k hg hj, C06_leaf_estimator_is_shapley_value hts' hdata' hC hm x' k' hg hj]
  exact shapley_le_of_changes hle

/-- **C138, normalised values**: the same for the normalised Shapley values and their game. -/
theorem C138_normalised (hts : ∀ t ∈ ts, WellFormed t m) (hdata : data ≠ []) (hcov : LeavesCovered ts data) (hC : ValidGroups m C)
    (hm : m < ulongMax) (x : Row) (k : Nat) {g : List Nat} (hg : g ∈ playerSet m C) {j : Nat} (hj : j ∈ g) :
    (∀ {lo hi : ℚ}, (∀ S, S ⊆ playerSet m C → g ∉ S → lo ≤ leafwiseNormGame ts m data x k (insert g S) - leafwiseNormGame ts m data x k S ∧
      leafwiseNormGame ts m data x k (insert g S) - leafwiseNormGame ts m data x k S ≤ hi) →
        lo ≤ shapNorm ts m data C x j k ∧ shapNorm ts m data C x j k ≤ hi) ∧
    ∀ {h : List Nat}, h ∈ playerSet m C → (∀ S, S ⊆ playerSet m C → g ∉ S → h ∉ S →
      leafwiseNormGame ts m data x k (insert g S) ≤ leafwiseNormGame ts m data x k (insert h S)) →
        ∀ {i : Nat}, i ∈ h → shapNorm ts m data C x j k ≤ shapNorm ts m data C x i k := by
  rw [C73_is_shapley_value hts hdata hcov hC hm x k hg hj]
  refine ⟨fun H => shapley_between hg H, fun hh H i hi => ?_⟩
  rw [C73_is_shapley_value hts hdata hcov hC hm x k hh hi]
  exact shapley_dominates hg hh H

/-- **C138, size of swing values**: between -1 and 1, on thresholds too. -/
theorem C138_swing_bounds (ts : List TreeArr) (lab : Row → Nat) (data : List Row) (thr : ℚ) (x : Row) (hC : ValidGroups m C)
    (hlen : (playerSet m C).card ≤ 32) {g : List Nat} (hg : g ∈ playerSet m C) {j : Nat} (hj : j ∈ g) :
    -1 ≤ (swingSlow ts m lab data C thr x j).phi ∧ (swingSlow ts m lab data C thr x j).phi ≤ 1 := by
  have h01 : ∀ S, 0 ≤ winsOf ts m lab data thr x S ∧ winsOf ts m lab data thr x S ≤ 1 := by
    intro S
    unfold winsOf swingWins
    dsimp only
    split_ifs <;> norm_num
  have e : (swingSlow ts m lab data C thr x j).phi = shapley (playerSet m C) (winsOf ts m lab data thr x) g :=
    swing_shapley hC hlen (fun g hg sel hs => swing_diff_wins hC hg hs) hg hj
  rw [e]
  refine shapley_between hg fun S _ _ => ?_
  have h1 := h01 S
  have h2 := h01 (insert g S)
  constructor <;> linarith

theorem winsOf_with (ts : List TreeArr) (lab : Row → Nat) (data : List Row) (thr : ℚ) (x : Row) (hC : ValidGroups m C) {S : Finset (List Nat)}
    (hS : S ⊆ playerSet m C) {g : List Nat} (hg : g ∈ playerSet m C) (hgS : g ∉ S) :
    (colsOf S).toList.Nodup ∧ (∀ s ∈ (colsOf S).toList, s < m) ∧ (∀ s ∈ g, s ∉ (colsOf S).toList) ∧
      winsOf ts m lab data thr x (insert g S) = swingWins ts m lab data thr x ((colsOf S).toList ++ g) := by
  have hmem : ∀ s, s ∈ (colsOf S).toList ↔ ∃ c ∈ S, s ∈ c := by
    intro s
    simp [colsOf]
  have hdis : ∀ s ∈ g, s ∉ (colsOf S).toList := by
    intro s hs hc
    obtain ⟨c, hcS, hsc⟩ := (hmem s).1 hc
    exact hgS (playerSet_disjoint hC hg (hS hcS) hs hsc ▸ hcS)
  refine ⟨Finset.nodup_toList _, fun s hs => ?_, hdis, ?_⟩
  · obtain ⟨c, hcS, hsc⟩ := (hmem s).1 hs
    exact (playerSet_lt hC (hS hcS)).2.2 s hsc
  · unfold winsOf
    refine swingWins_perm _ _ _ _ _ _ ((List.perm_ext_iff_of_nodup (Finset.nodup_toList _) ?_).2 fun s => ?_)
    · exact List.nodup_append'.2 ⟨Finset.nodup_toList _, (playerSet_lt hC hg).2.1, fun s h1 h2 => hdis s h2 h1⟩
    · rw [Finset.mem_toList, colsOf_insert]
      simp [or_comm]

/-- **C138, sign and order of swing values**: a player that never turns a set of columns which reaches the threshold into one that does
not has a value that is not negative; if every set of other columns that reaches the threshold with `g` reaches it with `h`, the value of
`h` is at least that of `g`. `swingWins` is 1 if the set of columns reaches the threshold and 0 if not. -/
theorem C138_swing (ts : List TreeArr) (lab : Row → Nat) (data : List Row) (thr : ℚ) (x : Row) (hC : ValidGroups m C)
    (hlen : (playerSet m C).card ≤ 32) {g : List Nat} (hg : g ∈ playerSet m C) {j : Nat} (hj : j ∈ g) :
    ((∀ S : List Nat, S.Nodup → (∀ s ∈ S, s < m) → (∀ s ∈ g, s ∉ S) →
        swingWins ts m lab data thr x S = 1 → swingWins ts m lab data thr x (S ++ g) = 1) →
      0 ≤ (swingSlow ts m lab data C thr x j).phi) ∧
    ∀ {h : List Nat}, h ∈ playerSet m C → (∀ S : List Nat, S.Nodup → (∀ s ∈ S, s < m) → (∀ s ∈ g, s ∉ S) → (∀ s ∈ h, s ∉ S) →
        swingWins ts m lab data thr x (S ++ g) = 1 → swingWins ts m lab data thr x (S ++ h) = 1) →
      ∀ {i : Nat}, i ∈ h → (swingSlow ts m lab data C thr x j).phi ≤ (swingSlow ts m lab data C thr x i).phi := by
  have h01 : ∀ S, swingWins ts m lab data thr x S = 1 ∨ swingWins ts m lab data thr x S = 0 := by
    intro S
    unfold swingWins
    dsimp only
    split_ifs <;> simp
  have hle : ∀ S T, (swingWins ts m lab data thr x S = 1 → swingWins ts m lab data thr x T = 1) →
      swingWins ts m lab data thr x S ≤ swingWins ts m lab data thr x T := by
    intro S T H
    rcases h01 S with h1 | h1
    · rw [h1, H h1]
    · rcases h01 T with h2 | h2 <;> rw [h1, h2] <;> norm_num
  have e : ∀ {g : List Nat}, g ∈ playerSet m C → ∀ {j : Nat}, j ∈ g →
      (swingSlow ts m lab data C thr x j).phi = shapley (playerSet m C) (winsOf ts m lab data thr x) g := fun hg _ hj =>
    swing_shapley hC hlen (fun g hg sel hs => swing_diff_wins hC hg hs) hg hj
  constructor
  · intro H
    rw [e hg hj, ← show shapley (playerSet m C) (fun _ => (0 : ℚ)) g = 0 from shapley_null fun _ => rfl]
    refine shapley_le_of_changes fun S hS hgS => ?_
    obtain ⟨h1, h2, h3, h4⟩ := winsOf_with ts lab data thr x hC hS hg hgS
    rw [h4, sub_self, sub_nonneg]
    exact hle _ _ (H _ h1 h2 h3)
  · intro h hh H i hi
    rw [e hg hj, e hh hi]
    refine shapley_dominates hg hh fun S hS h1 h2 => ?_
    obtain ⟨a1, a2, a3, a4⟩ := winsOf_with ts lab data thr x hC hS hg h1
    obtain ⟨-, -, b3, b4⟩ := winsOf_with ts lab data thr x hC hS hh h2
    rw [a4, b4]
    exact hle _ _ (H _ a1 a2 a3 b3)

end Leaf

/-! ## In terms of `compute_exp` -/

theorem columnsOf_insert (ts : List TreeArr) (m : Nat) (data : List Row) (x : Row) (k j : Nat) (S : Finset (List Nat)) :
    expCy ts m data (columnsOf (insert [j] S)) x k = expCy ts m data (j :: columnsOf S) x k := by
  refine expCy_mem fun s => ?_
  rw [List.mem_cons, columnsOf_lists, columnsOf_lists]
  simp

theorem columnsOf_valid {m : Nat} {S : Finset (List Nat)} (hS : S ⊆ playerSet m [[]]) :
    (∀ s ∈ columnsOf S, s < m) ∧ ∀ j, [j] ∉ S → j ∉ columnsOf S := by
  have hps : ∀ g ∈ S, ∃ i < m, g = [i] := by
    intro g hg
    have := hS hg
    rw [show playerSet m [[]] = (Finset.range m).image ([·]) from by ext c; simp [playerSet]] at this
    obtain ⟨i, hi, rfl⟩ := Finset.mem_image.1 this
    exact ⟨i, Finset.mem_range.1 hi, rfl⟩
  constructor
  · intro s hs
    obtain ⟨g, hg, hsg⟩ := (columnsOf_lists S s).1 hs
    obtain ⟨i, hi, rfl⟩ := hps g hg
    rw [List.mem_singleton.1 hsg]
    exact hi
  · intro j hj hc
    obtain ⟨g, hg, hsg⟩ := (columnsOf_lists S j).1 hc
    obtain ⟨i, hi, rfl⟩ := hps g hg
    rw [List.mem_singleton.1 hsg] at hj
    exact hj hg

/-- The claim of C138 for one column: if knowing it never lowers what `compute_exp` returns, its value is not negative. -/
def C138_sign_claim : Prop :=
  ∀ (ts : List TreeArr) (m : Nat), (∀ t ∈ ts, WellFormed t m) → ∀ (data : List Row), data ≠ [] → m < ulongMax → ∀ (x : Row) (k : Nat),
    ∀ j < m, (∀ S : List Nat, (∀ s ∈ S, s < m) → j ∉ S → expCy ts m data S x k ≤ expCy ts m data (j :: S) x k) →
      0 ≤ shapCy ts m data [[]] x j k

/-- **C138, compute_exp, partial**: if neither the observation nor a background row lies on a threshold, the value of a column lies
between the smallest and the largest change that fixing it makes to `compute_exp`. Missing (false): entries equal to a threshold,
`C138_sign_false`. -/
theorem C138_exp_partial {ts : List TreeArr} {m : Nat} (hts : ∀ t ∈ ts, WellFormed t m) {data : List Row} (hdata : data ≠ []) (hm : m < ulongMax)
    {x : Row} (k : Nat) (hx : ∀ t ∈ ts, OffSplits t x) (hd : ∀ t ∈ ts, ∀ z ∈ data, OffSplits t z) {j : Nat} (hj : j < m) {lo hi : ℚ}
    (hle : ∀ S : List Nat, (∀ s ∈ S, s < m) → j ∉ S → lo ≤ expCy ts m data (j :: S) x k - expCy ts m data S x k ∧
      expCy ts m data (j :: S) x k - expCy ts m data S x k ≤ hi) :
    lo ≤ shapCy ts m data [[]] x j k ∧ shapCy ts m data [[]] x j k ≤ hi := by
  have hg : [j] ∈ playerSet m [[]] := by simp [playerSet, hj]
  rw [C114_shap_of_exp_partial hts hdata (Or.inl rfl) hm columnsOf_lists k hx hd hg (List.mem_singleton.2 rfl)]
  refine shapley_between hg fun S hS hjS => ?_
  rw [columnsOf_insert]
  exact hle _ (columnsOf_valid hS).1 ((columnsOf_valid hS).2 j hjS)

/-- **C138, order by compute_exp, partial**: if fixing `j` always gives at least what fixing `i` gives, the value of `j` is at least
that of `i`. -/
theorem C138_exp_order_partial {ts : List TreeArr} {m : Nat} (hts : ∀ t ∈ ts, WellFormed t m) {data : List Row} (hdata : data ≠ [])
    (hm : m < ulongMax) {x : Row} (k : Nat) (hx : ∀ t ∈ ts, OffSplits t x) (hd : ∀ t ∈ ts, ∀ z ∈ data, OffSplits t z) {i j : Nat} (hi : i < m)
    (hj : j < m) (hle : ∀ S : List Nat, (∀ s ∈ S, s < m) → i ∉ S → j ∉ S → expCy ts m data (i :: S) x k ≤ expCy ts m data (j :: S) x k) :
    shapCy ts m data [[]] x i k ≤ shapCy ts m data [[]] x j k := by
  have hgi : [i] ∈ playerSet m [[]] := by simp [playerSet, hi]
  have hgj : [j] ∈ playerSet m [[]] := by simp [playerSet, hj]
  rw [C114_shap_of_exp_partial hts hdata (Or.inl rfl) hm columnsOf_lists k hx hd hgi (List.mem_singleton.2 rfl),
    C114_shap_of_exp_partial hts hdata (Or.inl rfl) hm columnsOf_lists k hx hd hgj (List.mem_singleton.2 rfl)]
  refine shapley_dominates hgi hgj fun S hS h1 h2 => ?_
  rw [columnsOf_insert, columnsOf_insert]
  exact hle _ (columnsOf_valid hS).1 ((columnsOf_valid hS).2 i h1) ((columnsOf_valid hS).2 j h2)

/-- what is known of the columns 1 and 2 -/
theorem exp_cases {data : List Row} {x : Row} {p : ℚ → ℚ → Prop} (h : ∀ T ∈ [[], [1], [2], [1, 2]],
    p (expCy [exTree] 3 data T x 0) (expCy [exTree] 3 data (0 :: T) x 0)) {S : List Nat} (hS : ∀ s ∈ S, s < 3) (h0 : 0 ∉ S) :
    p (expCy [exTree] 3 data S x 0) (expCy [exTree] 3 data (0 :: S) x 0) := by
  have key : ∃ T ∈ [[], [1], [2], [1, 2]], ∀ s, s ∈ S ↔ s ∈ T := by
    have hall : ∀ s ∈ S, s = 1 ∨ s = 2 := by
      intro s hs
      have h1 := hS s hs
      have h2 : s ≠ 0 := fun e => h0 (e ▸ hs)
      omega
    by_cases h1 : 1 ∈ S <;> by_cases h2 : 2 ∈ S
    · exact ⟨[1, 2], by simp, fun s => ⟨fun hs => by simpa using hall s hs, fun hs => by
        rcases (by simpa using hs : s = 1 ∨ s = 2) with rfl | rfl <;> assumption⟩⟩
    · exact ⟨[1], by simp, fun s => ⟨fun hs => by
        rcases hall s hs with rfl | rfl
        · simp
        · exact absurd hs h2, fun hs => by rw [List.mem_singleton.1 hs]; exact h1⟩⟩
    · exact ⟨[2], by simp, fun s => ⟨fun hs => by
        rcases hall s hs with rfl | rfl
        · exact absurd hs h1
        · simp, fun hs => by rw [List.mem_singleton.1 hs]; exact h2⟩⟩
    · exact ⟨[], by simp, fun s => ⟨fun hs => by
        rcases hall s hs with rfl | rfl
        · exact absurd hs h1
        · exact absurd hs h2, fun hs => by simp at hs⟩⟩
  obtain ⟨T, hT, hST⟩ := key
  rw [expCy_mem hST, expCy_mem (S := 0 :: S) (T := 0 :: T) (fun s => by rw [List.mem_cons, List.mem_cons, hST])]
  exact h T hT

/-- **C138 is false on thresholds**: at `x = (1, 1, 1)`, on a threshold of `exTree`, fixing column 0 raises `compute_exp` whatever else is
fixed (from 45/2 to 45, from 55/3 to 50), and its Shapley value is -55/12. -/
theorem C138_sign_false : ¬ C138_sign_claim := by
  intro h
  have := h [exTree] 3 (by simp [exTree_wf3]) exData (by simp [exData]) (by decide) (fun _ => 1) 0 0 (by decide) fun S hS h0 =>
    exp_cases (p := fun a b => a ≤ b) (by decide +kernel) hS h0
  revert this
  decide +kernel

/-- Off the thresholds: fixing column 0 changes `compute_exp` by 5 or 15/2, and its value 25/4 is between them. -/
example : (∀ t ∈ [exTree], OffSplits t fun _ => 2) ∧ (∀ t ∈ [exTree], ∀ z ∈ exData2, OffSplits t z) ∧
    (∀ S : List Nat, (∀ s ∈ S, s < 3) → 0 ∉ S →
      5 ≤ expCy [exTree] 3 exData2 (0 :: S) (fun _ => 2) 0 - expCy [exTree] 3 exData2 S (fun _ => 2) 0 ∧
      expCy [exTree] 3 exData2 (0 :: S) (fun _ => 2) 0 - expCy [exTree] 3 exData2 S (fun _ => 2) 0 ≤ 15 / 2) ∧
    shapCy [exTree] 3 exData2 [[]] (fun _ => 2) 0 0 = 25 / 4 := by
  refine ⟨?_, exData2_off, fun S hS h0 => exp_cases (p := fun a b => 5 ≤ b - a ∧ b - a ≤ 15 / 2) (by decide +kernel) hS h0, by decide +kernel⟩
  intro t ht
  rw [List.mem_singleton.1 ht]
  exact C20_background_row_on_threshold.2.1

/-- The changes of the game of the leaves in that case. -/
example : [0] ∈ playerSet 3 [[]] ∧ ∀ S, S ⊆ playerSet 3 [[]] → [0] ∉ S →
    5 ≤ leafGame [exTree] 3 exData2 (fun _ => 2) 0 (insert [0] S) - leafGame [exTree] 3 exData2 (fun _ => 2) 0 S ∧
    leafGame [exTree] 3 exData2 (fun _ => 2) 0 (insert [0] S) - leafGame [exTree] 3 exData2 (fun _ => 2) 0 S ≤ 15 / 2 := by
  refine ⟨by decide, fun S hS h0 => ?_⟩
  have hx : ∀ t ∈ [exTree], OffSplits t fun _ => 2 := by
    intro t ht
    rw [List.mem_singleton.1 ht]
    exact C20_background_row_on_threshold.2.1
  have e : ∀ S, leafGame [exTree] 3 exData2 (fun _ => 2) 0 S = expCy [exTree] 3 exData2 (columnsOf S) (fun _ => 2) 0 := by
    intro S
    rw [expCy_eq (by simp [exTree_wf3]) (columnsOf S) 0 hx exData2_off]
    refine leafGame_cols _ _ _ _ _ fun s => ?_
    rw [← columnsOf_lists S s]
    simp
  rw [e, e, columnsOf_insert]
  exact exp_cases (p := fun a b => 5 ≤ b - a ∧ b - a ≤ 15 / 2) (by decide +kernel) (columnsOf_valid hS).1 ((columnsOf_valid hS).2 0 h0)

/-- Order: fixing column 1 always gives less than fixing column 0. -/
example : (∀ S : List Nat, (∀ s ∈ S, s < 3) → 1 ∉ S → 0 ∉ S →
      expCy [exTree] 3 exData2 (1 :: S) (fun _ => 2) 0 ≤ expCy [exTree] 3 exData2 (0 :: S) (fun _ => 2) 0) ∧
    shapCy [exTree] 3 exData2 [[]] (fun _ => 2) 1 0 = -15 / 4 := by
  refine ⟨fun S hS h1 h0 => ?_, by decide +kernel⟩
  have hall : ∀ s ∈ S, s = 2 := by
    intro s hs
    have h3 := hS s hs
    have h4 : s ≠ 0 := fun e => h0 (e ▸ hs)
    have h5 : s ≠ 1 := fun e => h1 (e ▸ hs)
    omega
  by_cases h2 : 2 ∈ S
  · have hST : ∀ s, s ∈ S ↔ s ∈ [2] := fun s => ⟨fun hs => by simpa using hall s hs, fun hs => by rw [List.mem_singleton.1 hs]; exact h2⟩
    rw [expCy_mem (S := 1 :: S) (T := [1, 2]) (fun s => by rw [List.mem_cons, hST]; simp),
      expCy_mem (S := 0 :: S) (T := [0, 2]) (fun s => by rw [List.mem_cons, hST]; simp)]
    decide +kernel
  · have : S = [] := List.eq_nil_iff_forall_not_mem.2 fun s hs => h2 (hall s hs ▸ hs)
    subst this
    decide +kernel

/-- Swing values: column 0 decides the root split; no set of columns loses by it. -/
example : (∀ S : List Nat, S.Nodup → (∀ s ∈ S, s < 2) → (∀ s ∈ [0], s ∉ S) →
      swingWins [rootSplit] 2 (fun z => if z 0 ≤ 1 then 0 else 1) [fun _ => 0, fun j => if j = 0 then 2 else 0] (9 / 10) (fun _ => 0) S = 1 →
      swingWins [rootSplit] 2 (fun z => if z 0 ≤ 1 then 0 else 1) [fun _ => 0, fun j => if j = 0 then 2 else 0] (9 / 10) (fun _ => 0) (S ++ [0]) = 1) ∧
    (swingSlow [rootSplit] 2 (fun z => if z 0 ≤ 1 then 0 else 1) [fun _ => 0, fun j => if j = 0 then 2 else 0] [[]] (9 / 10) (fun _ => 0) 0).phi = 1 ∧
    (swingSlow [rootSplit] 2 (fun z => if z 0 ≤ 1 then 0 else 1) [fun _ => 0, fun j => if j = 0 then 2 else 0] [[]] (9 / 10) (fun _ => 0) 1).phi = 0 := by
  refine ⟨fun S hn hS h0 _ => ?_, by decide +kernel, by decide +kernel⟩
  have h0' : 0 ∉ S := h0 0 (by simp)
  have hall : ∀ s ∈ S, s = 1 := by
    intro s hs
    have h1 := hS s hs
    have h2 : s ≠ 0 := fun e => h0' (e ▸ hs)
    omega
  match S, hn, hall with
  | [], _, _ => decide +kernel
  | [s], _, hall =>
    rw [hall s (by simp)]
    decide +kernel
  | s :: s' :: S, hn, hall =>
    have h1 := hall s (by simp)
    have h2 := hall s' (by simp)
    subst h1 h2
    simp at hn

end Acv
