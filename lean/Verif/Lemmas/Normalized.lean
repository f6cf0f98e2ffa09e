import Verif.Lemmas.TreeSdp
import Verif.Lemmas.ShapPy
import Verif.Props.ShapPy
import Verif.Model.Normalized
import Verif.Spec.Normalized
import Verif.Spec.TreeSdp

namespace Acv

open Classical in
/-- the loop over players and masks computes the Shapley value of any game in which the players outside the leaf are null -/
theorem leafPhi_shapley {m : Nat} {C : List (List Nat)} (hC : ValidGroups m C) (hm : m < ulongMax) {vars : List Nat} (hnd : vars.Nodup)
    (hlt : ∀ i ∈ vars, i < m) (term : List Nat → List (List Nat) → Nat → ℚ) (V : Finset (List Nat) → ℚ)
    (hterm : ∀ va ∈ leafPlayersCy m C vars, ∀ counter,
      term va ((leafPlayersCy m C vars).erase va) counter =
        (coefZero m (maskSel ((leafPlayersCy m C vars).erase va) counter).length
          + coefLoop m ((leafPlayersCy m C vars).erase va).length (maskSel ((leafPlayersCy m C vars).erase va) counter).length) *
        (V (insert va (maskSel ((leafPlayersCy m C vars).erase va) counter).toFinset)
          - V (maskSel ((leafPlayersCy m C vars).erase va) counter).toFinset))
    (hnull : ∀ a ∈ playerSet m C, a ∉ leafPlayersCy m C vars → ∀ S, V (insert a S) = V S)
    {j : Nat} {g : List Nat} (hg : g ∈ playerSet m C) (hjg : j ∈ g) :
    ((playersCy m C).map fun va =>
      if va ∈ leafPlayersCy m C vars then
        ((List.range (2 ^ ((leafPlayersCy m C vars).erase va).length)).map fun counter =>
          (va.count j : ℚ) * term va ((leafPlayersCy m C vars).erase va) counter).sum
      else 0).sum / m = shapley (playerSet m C) V g := by
  obtain ⟨hpn, hpm⟩ := playersCy_spec hC
  obtain ⟨hln, hlm⟩ := leafPlayers_spec hC hnd hlt
  have hone : ((playersCy m C).map fun va =>
      if va ∈ leafPlayersCy m C vars then
        ((List.range (2 ^ ((leafPlayersCy m C vars).erase va).length)).map fun counter =>
          (va.count j : ℚ) * term va ((leafPlayersCy m C vars).erase va) counter).sum
      else 0).sum =
      if g ∈ leafPlayersCy m C vars then
        ((List.range (2 ^ ((leafPlayersCy m C vars).erase g).length)).map fun counter =>
          term g ((leafPlayersCy m C vars).erase g) counter).sum
      else 0 := by
    rw [← List.sum_toFinset _ hpn, Finset.sum_eq_single g]
    · have : g.count j = 1 := List.count_eq_one_of_mem (playerSet_lt hC hg).2.1 hjg
      simp only [this, Nat.cast_one, one_mul]
    · intro va hva hne
      rw [List.mem_toFinset, hpm] at hva
      have : va.count j = 0 := List.count_eq_zero_of_not_mem fun hj => hne (playerSet_disjoint hC hva hg hj hjg)
      simp [this]
    · intro hng; exact absurd (List.mem_toFinset.mpr ((hpm g).mpr hg)) hng
  rw [hone]
  by_cases hgl : g ∈ leafPlayersCy m C vars
  · rw [if_pos hgl]
    have hsub : (leafPlayersCy m C vars).toFinset ⊆ playerSet m C := by
      intro c hc; rw [List.mem_toFinset, hlm] at hc; exact hc.1
    rw [shapley_restrict hsub (List.mem_toFinset.mpr hgl) (fun a ha hna => hnull a ha (by simpa using hna))]
    have hterm' := hterm g hgl
    generalize hL : leafPlayersCy m C vars = L at *
    have hcardL : L.length ≤ m := by
      have h1 := Finset.card_le_card hsub
      rw [List.toFinset_card_of_nodup hln] at h1
      exact h1.trans (playerSet_card hC)
    have hrl : (L.erase g).length = L.length - 1 := List.length_erase_of_mem hgl
    have hpos : 0 < L.length := List.length_pos_of_mem hgl
    have herase : (L.erase g).toFinset = L.toFinset.erase g := by
      ext c; simp [hln.mem_erase_iff]
    simp only [hterm']
    have hms := mask_sum (L.erase g) (hln.erase g)
      (fun sel => (coefZero m sel.length + coefLoop m (L.erase g).length sel.length) *
        (V (insert g sel.toFinset) - V sel.toFinset))
      (fun S => (coefZero m S.card + coefLoop m (L.erase g).length S.card) * (V (insert g S) - V S))
      (by intro sel hs
          have : sel.toFinset.card = sel.length := List.toFinset_card_of_nodup ((hln.erase g).sublist hs)
          rw [this])
    rw [hms, Finset.sum_div, herase]
    unfold shapley
    apply Finset.sum_congr rfl
    intro S hS
    have hSc : S.card ≤ L.length - 1 := by
      have h1 := Finset.card_le_card (Finset.mem_powerset.mp hS)
      rw [Finset.card_erase_of_mem (List.mem_toFinset.mpr hgl), List.toFinset_card_of_nodup hln] at h1
      exact h1
    rw [mul_div_right_comm, hrl, coef_eq (by omega) hSc hm, List.toFinset_card_of_nodup hln]
    congr 2
    omega
  · rw [if_neg hgl, zero_div]
    symm
    apply shapley_null
    exact hnull g hg hgl

theorem runningNorm_sum {l : List (ℚ × ℚ × ℚ)} (h : ∀ q ∈ l, q.2.2 ≠ 0) :
    runningNorm l = (l.map fun q => q.1 * q.2.1 / q.2.2).sum := by
  have key : ∀ (l : List (ℚ × ℚ × ℚ)) (a : ℚ), (∀ q ∈ l, q.2.2 ≠ 0) →
      l.foldl (fun n q => if q.2.2 ≠ 0 then n + q.1 * q.2.1 / q.2.2 else 0) a
        = a + (l.map fun q => q.1 * q.2.1 / q.2.2).sum := by
    intro l
    induction l with
    | nil => simp
    | cons q l ih =>
      intro a h
      rw [List.foldl_cons, if_pos (h q (by simp)), ih _ (fun p hp => h p (by simp [hp])), List.map_cons, List.sum_cons, add_assoc]
  unfold runningNorm
  rw [key l 0 h, zero_add]

theorem normProb_eq (own : ℚ × ℚ × ℚ) (all : List (ℚ × ℚ × ℚ)) :
    normProb own all = own.1 * own.2.1 / own.2.2 / runningNorm all := by
  unfold normProb
  simp only
  split
  · rw [div_div]
  · rename_i h
    rcases mul_eq_zero.mp (not_not.mp h) with h | h <;> rw [h] <;> simp

open Classical in
theorem share_eq {m : Nat} (data : List Row) (r : Rect) (x : Row) (sel : List (List Nat)) :
    (if sat r sel.flatten x then 1 else 0 : ℚ) * (cnt data r (List.range m) : ℚ) / (cnt data r sel.flatten : ℚ)
      = leafShare m data r x sel.toFinset := by
  have hx' : sat r sel.flatten x = decide (AgreesOn r sel.toFinset x) := by
    rw [Bool.eq_iff_iff, sat_flatten]; simp
  rw [cnt_flatten, cnt_range, hx']
  unfold leafShare
  by_cases ha : AgreesOn r sel.toFinset x <;> simp [ha]

open Classical in
theorem share_insert_eq {m : Nat} (data : List Row) (r : Rect) (x : Row) (sel : List (List Nat)) (va : List Nat) :
    (if sat r sel.flatten x && sat r va x then 1 else 0 : ℚ) * (cnt data r (List.range m) : ℚ)
        / ((data.filter fun z => sat r sel.flatten z && sat r va z).length : ℚ)
      = leafShare m data r x (insert va sel.toFinset) := by
  have hsi : ((data.filter (fun z => sat r sel.flatten z && sat r va z)).length : ℚ)
      = (data.filter (fun z => AgreesOn r (insert va sel.toFinset) z)).length := by
    congr 2
    apply List.filter_congr
    intro z _
    rw [Bool.eq_iff_iff, Bool.and_eq_true, sat_flatten]
    simp [agreesOn_insert]
  have hx : (sat r sel.flatten x && sat r va x) = decide (AgreesOn r (insert va sel.toFinset) x) := by
    rw [Bool.eq_iff_iff, Bool.and_eq_true, sat_flatten]
    simp [agreesOn_insert]
  rw [hsi, hx, cnt_range]
  unfold leafShare
  by_cases ha : AgreesOn r (insert va sel.toFinset) x <;> simp [ha]

open Classical in
theorem leafShare_empty {m : Nat} (data : List Row) (r : Rect) (x : Row) :
    leafShare m data r x ∅ = (cnt data r (List.range m) : ℚ) / data.length := by
  unfold leafShare
  have : ∀ z, AgreesOn r ∅ z := by intro z g hg; simp at hg
  simp only [this, if_true, decide_true, List.filter_true, cnt_range]

/-- the shares of all leaves at the empty coalition sum to 1 -/
theorem shares_empty_sum {t : TreeArr} {m : Nat} (ht : WellFormed t m) {data : List Row} (hdata : data ≠ []) (x : Row) :
    (t.leafIdx.map fun ℓ => leafShare m data (t.leafRect ℓ) x ∅).sum = 1 := by
  have h := sum_leaf_counts ht data (fun _ => 1 / (data.length : ℚ))
  simp only [List.map_const', List.sum_replicate, nsmul_eq_mul, mul_one_div] at h
  simp only [leafShare_empty]
  rw [h]
  have : (data.length : ℚ) ≠ 0 := by
    have := List.length_pos_of_ne_nil hdata; positivity
  exact div_self this

theorem normShare_empty {t : TreeArr} {m : Nat} (ht : WellFormed t m) {data : List Row} (hdata : data ≠ []) (ℓ : Nat) (x : Row) :
    normShare t m data ℓ x ∅ = (cnt data (t.leafRect ℓ) (List.range m) : ℚ) / data.length := by
  unfold normShare
  rw [shares_empty_sum ht hdata, div_one, leafShare_empty]

open Classical in
/-- one term of the loop, all leaves of the tree being covered -/
theorem normTerm_eq {t : TreeArr} {m : Nat} (ht : WellFormed t m) {data : List Row} (hdata : data ≠ [])
    (hcov : ∀ ℓ ∈ t.leafIdx, 0 < cnt data (t.leafRect ℓ) (List.range m)) (ℓ : Nat) (x : Row) (va : List Nat)
    (rest : List (List Nat)) (counter : Nat) (hva : ∀ s ∈ va, s < m) (hrest : ∀ c ∈ maskSel rest counter, ∀ s ∈ c, s < m) :
    normTerm m data (t.leafIdx.map t.leafRect) (t.leafRect ℓ) x va rest counter =
      (coefZero m (maskSel rest counter).length + coefLoop m rest.length (maskSel rest counter).length) *
        (normShare t m data ℓ x (insert va (maskSel rest counter).toFinset)
          - normShare t m data ℓ x (maskSel rest counter).toFinset) := by
  unfold normTerm
  simp only
  generalize maskSel rest counter = sel at *
  have hflat : ∀ s ∈ sel.flatten, s ∈ List.range m := by
    intro s hs; obtain ⟨c, hc, hsc⟩ := List.mem_flatten.mp hs; exact List.mem_range.mpr (hrest c hc s hsc)
  congr 2
  · rw [normProb_eq, runningNorm_sum, List.map_map, List.map_map, share_insert_eq]
    · unfold normShare
      congr 3
      funext ℓ'
      simp only [Function.comp]
      exact share_insert_eq ..
    · intro q hq
      obtain ⟨r, hr, rfl⟩ := List.mem_map.mp hq
      obtain ⟨ℓ', hℓ', rfl⟩ := List.mem_map.mp hr
      obtain ⟨z, hz⟩ := List.exists_mem_of_length_pos (hcov ℓ' hℓ')
      rw [List.mem_filter, sat_iff] at hz
      have : 0 < (data.filter fun z => sat (t.leafRect ℓ') sel.flatten z && sat (t.leafRect ℓ') va z).length := by
        apply List.length_pos_of_mem (a := z)
        rw [List.mem_filter, Bool.and_eq_true, sat_iff, sat_iff]
        exact ⟨hz.1, fun s hs => hz.2 s (hflat s hs), fun s hs => hz.2 s (List.mem_range.mpr (hva s hs))⟩
      simp only
      positivity
  · by_cases h0 : sel.flatten.length = 0
    · rw [if_pos h0]
      have hnil : sel.flatten = [] := List.eq_nil_of_length_eq_zero h0
      rw [← normShare_empty ht hdata ℓ x]
      have hsame : ∀ r z, AgreesOn r sel.toFinset z ↔ AgreesOn r ∅ z := by
        intro r z
        rw [← sat_flatten, hnil]
        simp [sat, AgreesOn]
      unfold normShare leafShare
      simp only [hsame]
    · rw [if_neg h0, normProb_eq, runningNorm_sum, List.map_map, List.map_map, share_eq]
      · unfold normShare
        congr 3
        funext ℓ'
        simp only [Function.comp]
        exact share_eq ..
      · intro q hq
        obtain ⟨r, hr, rfl⟩ := List.mem_map.mp hq
        obtain ⟨ℓ', hℓ', rfl⟩ := List.mem_map.mp hr
        have := cnt_mono (data := data) (r := t.leafRect ℓ') hflat
        have := hcov ℓ' hℓ'
        have : 0 < cnt data (t.leafRect ℓ') sel.flatten := by omega
        simp only
        positivity

theorem touching_of_subset {t : TreeArr} {ℓ : Nat} {S : Finset (List Nat)} (h : ∀ g ∈ S, ∃ s ∈ g, s ∈ t.leafCols ℓ) :
    touching t ℓ S = S := Finset.filter_true_of_mem h

theorem maskSel_subset {α : Type} : ∀ (l : List α) (c : Nat), ∀ a ∈ maskSel l c, a ∈ l
  | [], _, a, h => by simp [maskSel] at h
  | b :: l, c, a, h => by
    unfold maskSel at h
    split at h
    · rcases List.mem_cons.mp h with rfl | h
      · simp
      · exact List.mem_cons_of_mem _ (maskSel_subset l _ a h)
    · exact List.mem_cons_of_mem _ (maskSel_subset l _ a h)

theorem normLeafPhi_eq {t : TreeArr} {m : Nat} (ht : WellFormed t m) {ℓ : Nat} (hℓ : ℓ ∈ t.leafIdx) {data : List Row} (hdata : data ≠ [])
    (hcov : ∀ ℓ ∈ t.leafIdx, 0 < cnt data (t.leafRect ℓ) (List.range m))
    {C : List (List Nat)} (hC : ValidGroups m C) (hm : m < ulongMax) (x : Row) {j : Nat}
    {g : List Nat} (hg : g ∈ playerSet m C) (hjg : j ∈ g) :
    normLeafPhi m data C (t.leafIdx.map t.leafRect) (t.leafRect ℓ) (t.leafCols ℓ) x j / m
      = shapley (playerSet m C) (fun S => normShare t m data ℓ x (touching t ℓ S)) g := by
  obtain ⟨hnd, hlt, hun⟩ := leafCols_spec ht hℓ
  obtain ⟨hln, hlm⟩ := leafPlayers_spec hC hnd hlt
  unfold normLeafPhi
  simp only
  refine leafPhi_shapley hC hm hnd hlt (fun va rest counter => normTerm m data _ _ x va rest counter) _ ?_ ?_ hg hjg
  · intro va hva counter
    have hsel : ∀ c ∈ maskSel ((leafPlayersCy m C (t.leafCols ℓ)).erase va) counter, c ∈ leafPlayersCy m C (t.leafCols ℓ) :=
      fun c hc => List.mem_of_mem_erase (maskSel_subset _ _ c hc)
    have htouch : ∀ c ∈ leafPlayersCy m C (t.leafCols ℓ), ∃ s ∈ c, s ∈ t.leafCols ℓ := by
      intro c hc
      obtain ⟨_, s, h1, h2⟩ := (hlm c).mp hc
      exact ⟨s, h2, h1⟩
    rw [normTerm_eq ht hdata hcov ℓ x va _ counter (playerSet_lt hC ((hlm va).mp hva).1).2.2
      (fun c hc => (playerSet_lt hC ((hlm c).mp (hsel c hc)).1).2.2)]
    rw [touching_of_subset, touching_of_subset]
    · intro g hg; exact htouch g (hsel g (List.mem_toFinset.mp hg))
    · intro g hg
      rcases Finset.mem_insert.mp hg with rfl | hg
      · exact htouch g hva
      · exact htouch g (hsel g (List.mem_toFinset.mp hg))
  · intro a ha hna S
    beta_reduce
    congr 1
    unfold touching
    rw [Finset.filter_insert, if_neg]
    rintro ⟨s, h1, h2⟩
    exact hna ((hlm a).mpr ⟨ha, s, h2, h1⟩)

theorem shapNorm_eq {ts : List TreeArr} {m : Nat} (hts : ∀ t ∈ ts, WellFormed t m) {data : List Row} (hdata : data ≠ [])
    (hcov : ∀ t ∈ ts, ∀ ℓ ∈ t.leafIdx, 0 < cnt data (t.leafRect ℓ) (List.range m))
    {C : List (List Nat)} (hC : ValidGroups m C) (hm : m < ulongMax) (x : Row) {j : Nat} (k : Nat)
    {g : List Nat} (hg : g ∈ playerSet m C) (hjg : j ∈ g) :
    shapNorm ts m data C x j k = shapley (playerSet m C) (leafwiseNormGame ts m data x k) g := by
  have h1 : leafwiseNormGame ts m data x k = fun S => (ts.map fun t => (fun S => (t.leafIdx.map fun ℓ =>
      t.value ℓ k * normShare t m data ℓ x (touching t ℓ S)).sum) S).sum := rfl
  rw [h1, shapley_sum]
  unfold shapNorm
  rw [div_eq_mul_inv, ← List.sum_map_mul_right]
  congr 1
  apply List.map_congr_left
  intro t ht
  rw [shapley_sum (playerSet m C) t.leafIdx (fun ℓ S => t.value ℓ k * normShare t m data ℓ x (touching t ℓ S)) g,
    ← List.sum_map_mul_right]
  congr 1
  apply List.map_congr_left
  intro ℓ hℓ
  rw [shapley_mul, ← normLeafPhi_eq (hts t ht) hℓ hdata (hcov t ht) hC hm x hg hjg]
  ring

/-- the columns tested for a leaf decide membership in its box -/
theorem agreesOn_touching {t : TreeArr} {m : Nat} (ht : WellFormed t m) {ℓ : Nat} (hℓ : ℓ ∈ t.leafIdx)
    {C : List (List Nat)} (hC : ValidGroups m C) (z : Row) :
    AgreesOn (t.leafRect ℓ) (touching t ℓ (playerSet m C)) z ↔ InBox m (t.leafRect ℓ) z := by
  obtain ⟨hnd, hlt, hun⟩ := leafCols_spec ht hℓ
  rw [← agreesOn_all hC]
  constructor
  · intro h g hg s hs
    by_cases hsl : s ∈ t.leafCols ℓ
    · exact h g (Finset.mem_filter.mpr ⟨hg, s, hs, hsl⟩) s hs
    · rw [hun s hsl]; simp [Ival.all]
  · intro h g hg
    exact h g (Finset.mem_filter.mp hg).1

open Classical in
theorem normShare_full {t : TreeArr} {m : Nat} (ht : WellFormed t m) {data : List Row}
    (hcov : ∀ ℓ ∈ t.leafIdx, 0 < cnt data (t.leafRect ℓ) (List.range m)) {ℓ : Nat} (hℓ : ℓ ∈ t.leafIdx)
    {C : List (List Nat)} (hC : ValidGroups m C) (x : Row) :
    normShare t m data ℓ x (touching t ℓ (playerSet m C)) = if InBox m (t.leafRect ℓ) x then 1 else 0 := by
  have hown : leafShare m data (t.leafRect ℓ) x (touching t ℓ (playerSet m C)) = if InBox m (t.leafRect ℓ) x then 1 else 0 := by
    unfold leafShare
    simp only [agreesOn_touching ht hℓ hC]
    split
    · have := hcov ℓ hℓ
      rw [← cnt_range, div_self (by positivity)]
    · rfl
  by_cases hx : InBox m (t.leafRect ℓ) x
  · unfold normShare
    have hsum : (t.leafIdx.map fun ℓ' => leafShare m data (t.leafRect ℓ') x (touching t ℓ (playerSet m C))).sum
        = leafShare m data (t.leafRect ℓ) x (touching t ℓ (playerSet m C)) := by
      rw [← List.sum_toFinset _ (leafIdx_nodup t)]
      refine Finset.sum_eq_single_of_mem ℓ (List.mem_toFinset.mpr hℓ) ?_
      intro ℓ' hℓ' hne
      rw [List.mem_toFinset] at hℓ'
      unfold leafShare
      rw [if_neg]
      intro ha
      apply hne
      obtain ⟨z, hz⟩ := List.exists_mem_of_length_pos (hcov ℓ' hℓ')
      rw [List.mem_filter, sat_range] at hz
      -- a point that agrees with `x` on the players touching `ℓ`, and with a row of `ℓ'` elsewhere
      let y : Row := fun s => if ∃ g ∈ touching t ℓ (playerSet m C), s ∈ g then x s else z s
      have hy' : InBox m (t.leafRect ℓ') y := by
        intro s hs
        by_cases hsg : ∃ g ∈ touching t ℓ (playerSet m C), s ∈ g
        · have hys : y s = x s := if_pos hsg
          obtain ⟨g, hg, hsg⟩ := hsg
          rw [hys]; exact ha g hg s hsg
        · have hys : y s = z s := if_neg hsg
          rw [hys]; exact hz.2 s hs
      have hy : InBox m (t.leafRect ℓ) y := by
        rw [← agreesOn_touching ht hℓ hC]
        rw [← agreesOn_touching ht hℓ hC] at hx
        intro g hg s hs
        have hys : y s = x s := if_pos ⟨g, hg, hs⟩
        rw [hys]; exact hx g hg s hs
      rw [inBox_leaf_iff ht y hℓ] at hy
      rw [inBox_leaf_iff ht y hℓ'] at hy'
      rw [← hy', hy]
    rw [hsum, hown, if_pos hx, div_one]
  · rw [if_neg hx]
    unfold normShare
    rw [hown, if_neg hx, zero_div]

theorem leafwise_full {ts : List TreeArr} {m : Nat} (hts : ∀ t ∈ ts, WellFormed t m) {data : List Row}
    (hcov : ∀ t ∈ ts, ∀ ℓ ∈ t.leafIdx, 0 < cnt data (t.leafRect ℓ) (List.range m))
    {C : List (List Nat)} (hC : ValidGroups m C) (x : Row) (k : Nat) :
    leafwiseNormGame ts m data x k (playerSet m C) = (ts.map fun t => t.value (leafAt t x) k).sum := by
  classical
  unfold leafwiseNormGame
  congr 1
  apply List.map_congr_left
  intro t ht
  rw [← sum_leaf_indicator (hts t ht) x (fun ℓ => t.value ℓ k)]
  congr 1
  apply List.map_congr_left
  intro ℓ hℓ
  rw [normShare_full (hts t ht) (hcov t ht) hℓ hC]
  split <;> simp

theorem leafwise_empty {ts : List TreeArr} {m : Nat} (hts : ∀ t ∈ ts, WellFormed t m) {data : List Row} (hdata : data ≠ [])
    (x : Row) (k : Nat) : leafwiseNormGame ts m data x k ∅ = leafGame ts m data x k ∅ := by
  unfold leafwiseNormGame leafGame
  congr 1
  apply List.map_congr_left
  intro t ht
  congr 1
  apply List.map_congr_left
  intro ℓ _
  have : touching t ℓ ∅ = ∅ := rfl
  rw [this, normShare_empty (hts t ht) hdata, leafShare_empty]

theorem normGame_empty {ts : List TreeArr} {m : Nat} (hts : ∀ t ∈ ts, WellFormed t m) {data : List Row} (hdata : data ≠ [])
    (x : Row) (k : Nat) : normGame ts m data x k ∅ = leafGame ts m data x k ∅ := by
  unfold normGame leafGame
  congr 1
  apply List.map_congr_left
  intro t ht
  congr 1
  apply List.map_congr_left
  intro ℓ _
  rw [normShare_empty (hts t ht) hdata, leafShare_empty]

end Acv
