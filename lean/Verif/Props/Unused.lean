import Verif.Lemmas.Unused
import Verif.Model.DdpRule
import Verif.Model.Normalized
import Verif.Lemmas.SdpReg
import Verif.Model.ActiveShap
import Verif.Props.Counterfactual
import Verif.Props.Shapley
import Verif.Props.Search

/-!
# C118: columns that the model does not use

The entries of unused columns, their membership in the set of fixed columns and their number do not matter; a search does not report them.
-/

namespace Acv

/-! ## Prediction -/

/-- **C118, prediction**: the entries of unused columns do not matter, missing or not. -/
theorem C118_predict {ts : List TreeArr} {d : Nat} (hw : ∀ t ∈ ts, WellFormed t d) {x x' : Obs} (hx : ∀ j, UsesColumn ts j → x' j = x j)
    (dfltLimit arg : Option Int) (base : Nat → ℚ) (k : Nat) :
    ensemblePredict ts dfltLimit arg base x' k = ensemblePredict ts dfltLimit arg base x k := by
  have hwalk : ∀ (off fuel n : Nat), (pack ts).walk x' off fuel n = (pack ts).walk x off fuel n := by
    intro off fuel
    induction fuel with
    | zero => intro n; rfl
    | succ fuel ih =>
      intro n
      unfold Packed.walk
      by_cases hl : (pack ts).left (off + n) < 0
      · simp [hl]
      · have hu : UsesColumn ts ((pack ts).feature (off + n)).toNat := by
          simp only [pack] at hl ⊢
          rcases lt_or_ge ((off + n) / maxNodes ts) ts.length with h | h
          · simp only [List.getD_eq_getElem?_getD, List.getElem?_eq_getElem h, Option.getD_some] at hl ⊢
            by_cases hsz : (off + n) % maxNodes ts < ts[(off + n) / maxNodes ts].size
            · rw [if_pos hsz] at hl ⊢
              have hmem := List.getElem_mem h
              obtain ⟨b, hb⟩ := hw _ hmem
              have hpos := feature_nonneg hb.enc _ ((hb.all _).2 hsz) (not_lt.1 hl)
              exact ⟨_, hmem, _, hsz, not_lt.1 hl, by omega⟩
            · rw [if_neg hsz] at hl
              exact absurd (by norm_num) hl
          · exfalso
            apply hl
            simp only [List.getD_eq_getElem?_getD, List.getElem?_eq_none h, Option.getD_none]
            rw [if_neg (by simp [TreeArr.empty])]
            norm_num
        simp only [hx _ hu, ih]
  unfold ensemblePredict Packed.predict
  simp only [hwalk]

/-! ## Leaf-based estimators -/

theorem sumLeaves_congr' {ts : List TreeArr} {k : Nat} {f g : Rect → ℚ → ℚ}
    (h : ∀ t ∈ ts, ∀ ℓ ∈ t.leafIdx, f (t.leafRect ℓ) (t.value ℓ k) = g (t.leafRect ℓ) (t.value ℓ k)) :
    sumLeaves ts k f = sumLeaves ts k g := by
  unfold sumLeaves
  congr 1
  refine List.map_congr_left fun t ht => ?_
  congr 1
  exact List.map_congr_left fun ℓ hℓ => h t ht ℓ hℓ

/-- **C118, conditional expectations**: unused columns may be changed in the data and in the observation, and added to or removed from the
set. (`py_compute_exp` raises on the empty set.) -/
theorem C118_exp {m : Nat} {ts : List TreeArr} (hw : ∀ t ∈ ts, WellFormed t m) {d d' : List Row} (hd : List.Forall₂ (SameUsed ts) d d')
    {x x' : Row} (hx : SameUsed ts x x') {S S' : List Nat} (hS : SameUsedColumns ts S S') (k : Nat) :
    expCy ts m d' S' x' k = expCy ts m d S x k ∧
    (S ≠ [] → S' ≠ [] → expPy ts m d' S' x' k = expPy ts m d S x k) ∧
    expNormCy ts m d' S' x' k = expNormCy ts m d S x k := by
  have hr : ∀ t ∈ ts, ∀ ℓ ∈ t.leafIdx, ∀ j, ¬ UsesColumn ts j → t.leafRect ℓ j = Ival.all := fun t ht ℓ hℓ => leafRect_unused hw ht hℓ
  have hR : ∀ j, UsesColumn ts j → (j ∈ List.range m ↔ j ∈ List.range m) := fun _ _ => Iff.rfl
  refine ⟨?_, fun h h' => ?_, ?_⟩
  · refine sumLeaves_congr' fun t ht ℓ hℓ => ?_
    simp only [satCC_used (hr t ht ℓ hℓ) hS hx, cntCC_used (hr t ht ℓ hℓ) hR hd, cnt_used (hr t ht ℓ hℓ) hS hd]
  · unfold expPy
    rw [if_neg h, if_neg h']
    congr 1
    refine sumLeaves_congr' fun t ht ℓ hℓ => ?_
    simp only [satCC_used (hr t ht ℓ hℓ) hS hx, cntCC_used (hr t ht ℓ hℓ) hR hd, cntCC_used (hr t ht ℓ hℓ) hS hd]
  · unfold expNormCy
    congr 1
    refine List.map_congr_left fun t ht => ?_
    unfold expNormTree
    have h1 : (t.leafIdx.filter fun ℓ => satCC (t.leafRect ℓ) S' x') = t.leafIdx.filter fun ℓ => satCC (t.leafRect ℓ) S x :=
      List.filter_congr fun ℓ hℓ => satCC_used (hr t ht ℓ hℓ) hS hx
    simp only [h1]
    have hm : ∀ ℓ ∈ t.leafIdx.filter (fun ℓ => satCC (t.leafRect ℓ) S x), cntCC d' (t.leafRect ℓ) (List.range m) = cntCC d (t.leafRect ℓ) (List.range m) ∧
        cnt d' (t.leafRect ℓ) S' = cnt d (t.leafRect ℓ) S := fun ℓ hℓ =>
      ⟨cntCC_used (hr t ht ℓ (List.mem_filter.1 hℓ).1) hR hd, cnt_used (hr t ht ℓ (List.mem_filter.1 hℓ).1) hS hd⟩
    generalize t.leafIdx.filter (fun ℓ => satCC (t.leafRect ℓ) S x) = fits at hm
    have e1 : (fits.any fun ℓ => decide (cnt d' (t.leafRect ℓ) S' = 0 ∧ cntCC d' (t.leafRect ℓ) (List.range m) = 0)) =
        fits.any fun ℓ => decide (cnt d (t.leafRect ℓ) S = 0 ∧ cntCC d (t.leafRect ℓ) (List.range m) = 0) := by
      rw [Bool.eq_iff_iff, List.any_eq_true, List.any_eq_true]
      exact exists_congr fun ℓ => and_congr_right fun hℓ => by rw [(hm ℓ hℓ).1, (hm ℓ hℓ).2]
    have e2 : (fits.any fun ℓ => decide (cnt d' (t.leafRect ℓ) S' = 0)) = fits.any fun ℓ => decide (cnt d (t.leafRect ℓ) S = 0) := by
      rw [Bool.eq_iff_iff, List.any_eq_true, List.any_eq_true]
      exact exists_congr fun ℓ => and_congr_right fun hℓ => by rw [(hm ℓ hℓ).2]
    have e3 : (fits.map fun ℓ => (cntCC d' (t.leafRect ℓ) (List.range m) : ℚ) / cnt d' (t.leafRect ℓ) S') =
        fits.map fun ℓ => (cntCC d (t.leafRect ℓ) (List.range m) : ℚ) / cnt d (t.leafRect ℓ) S :=
      List.map_congr_left fun ℓ hℓ => by rw [(hm ℓ hℓ).1, (hm ℓ hℓ).2]
    rw [e1, e2, e3]
    split
    · rfl
    · split
      · rfl
      · congr 2
        exact List.map_congr_left fun ℓ hℓ => by rw [(hm ℓ hℓ).1, (hm ℓ hℓ).2]

/-- **C118, Shapley values and Active Shapley values**: the entries of unused columns do not matter. -/
theorem C118_shapley {m : Nat} {ts : List TreeArr} (hw : ∀ t ∈ ts, WellFormed t m) {d d' : List Row} (hd : List.Forall₂ (SameUsed ts) d d')
    {x x' : Row} (hx : SameUsed ts x x') (C : List (List Nat)) (S N : List Nat) (j k : Nat) :
    shapCy ts m d' C x' j k = shapCy ts m d C x j k ∧
    shapNorm ts m d' C x' j k = shapNorm ts m d C x j k ∧
    activeCy ts m d' C S N x' j k = activeCy ts m d C S N x j k := by
  have hr : ∀ t ∈ ts, ∀ ℓ ∈ t.leafIdx, ∀ j, ¬ UsesColumn ts j → t.leafRect ℓ j = Ival.all := fun t ht ℓ hℓ => leafRect_unused hw ht hℓ
  have hI : ∀ T : List Nat, ∀ j, UsesColumn ts j → (j ∈ T ↔ j ∈ T) := fun _ _ _ => Iff.rfl
  have hlen : d'.length = d.length := hd.length_eq.symm
  have hc : ∀ r : Rect, (∀ j, ¬ UsesColumn ts j → r j = Ival.all) → ∀ T, cnt d' r T = cnt d r T := fun r h T => cnt_used h (hI T) hd
  have hs : ∀ r : Rect, (∀ j, ¬ UsesColumn ts j → r j = Ival.all) → ∀ T, sat r T x' = sat r T x := fun r h T => sat_used h (hI T) hx
  have hc2 : ∀ r : Rect, (∀ j, ¬ UsesColumn ts j → r j = Ival.all) → ∀ T V : List Nat,
      (d'.filter fun z => sat r T z && sat r V z).length = (d.filter fun z => sat r T z && sat r V z).length := fun r h T V =>
    forall₂_count (fun _ _ hz => by rw [sat_used h (hI T) hz, sat_used h (hI V) hz]) hd
  refine ⟨?_, ?_, ?_⟩
  · unfold shapCy
    congr 2
    refine List.map_congr_left fun t ht => ?_
    congr 1
    refine List.map_congr_left fun ℓ hℓ => ?_
    simp only [cyLeafPhi, cyTerm, hlen, hc _ (hr t ht ℓ hℓ), hs _ (hr t ht ℓ hℓ), hc2 _ (hr t ht ℓ hℓ)]
  · unfold shapNorm
    congr 2
    refine List.map_congr_left fun t ht => ?_
    congr 1
    refine List.map_congr_left fun ℓ hℓ => ?_
    congr 1
    have hall : ∀ (va : List Nat) (rest : List (List Nat)) (c : Nat), normTerm m d' (t.leafIdx.map t.leafRect) (t.leafRect ℓ) x' va rest c =
        normTerm m d (t.leafIdx.map t.leafRect) (t.leafRect ℓ) x va rest c := by
      intro va rest c
      have h1 : ∀ T : List Nat, ((t.leafIdx.map t.leafRect).map fun q : Rect => ((if sat q T x' then 1 else 0 : ℚ),
          (cnt d' q (List.range m) : ℚ), (cnt d' q T : ℚ))) = (t.leafIdx.map t.leafRect).map fun q : Rect => ((if sat q T x then 1 else 0 : ℚ),
          (cnt d q (List.range m) : ℚ), (cnt d q T : ℚ)) := by
        intro T
        refine List.map_congr_left fun q hq => ?_
        obtain ⟨ℓ', hℓ', rfl⟩ := List.mem_map.1 hq
        simp only [hc _ (hr t ht ℓ' hℓ'), hs _ (hr t ht ℓ' hℓ')]
      have h2 : ∀ T V : List Nat, ((t.leafIdx.map t.leafRect).map fun q : Rect => ((if sat q T x' && sat q V x' then 1 else 0 : ℚ),
          (cnt d' q (List.range m) : ℚ), ((d'.filter fun z => sat q T z && sat q V z).length : ℚ))) =
          (t.leafIdx.map t.leafRect).map fun q : Rect => ((if sat q T x && sat q V x then 1 else 0 : ℚ),
          (cnt d q (List.range m) : ℚ), ((d.filter fun z => sat q T z && sat q V z).length : ℚ)) := by
        intro T V
        refine List.map_congr_left fun q hq => ?_
        obtain ⟨ℓ', hℓ', rfl⟩ := List.mem_map.1 hq
        simp only [hc _ (hr t ht ℓ' hℓ'), hs _ (hr t ht ℓ' hℓ'), hc2 _ (hr t ht ℓ' hℓ')]
      simp only [normTerm, h1, h2, hlen, hc _ (hr t ht ℓ hℓ), hs _ (hr t ht ℓ hℓ), hc2 _ (hr t ht ℓ hℓ)]
    simp only [normLeafPhi, hall]
  · unfold activeCy
    congr 3
    refine List.flatMap_congr fun t ht => ?_
    refine List.flatMap_congr fun ℓ hℓ => ?_
    simp only [activeLeafWrites, activeTerm, activeOffTerm, hlen, hc _ (hr t ht ℓ hℓ), hs _ (hr t ht ℓ hℓ), hc2 _ (hr t ht ℓ hℓ)]

/-- **C118, more columns**: with `m' - m` further columns, none of them used, the values of the first `m` columns are the same. -/
theorem C118_more_columns {m m' : Nat} (hmm : m ≤ m') (hm' : m' < ulongMax) {ts : List TreeArr} (hw : ∀ t ∈ ts, WellFormed t m) (d : List Row)
    {C : List (List Nat)} (hC : ValidGroups m C) (S : List Nat) (x : Row) {j : Nat} (hj : j < m) (k : Nat) :
    shapCy ts m' d C x j k = shapCy ts m d C x j k ∧ expCy ts m' d S x k = expCy ts m d S x k ∧ expPy ts m' d S x k = expPy ts m d S x k ∧
    expNormCy ts m' d S x k = expNormCy ts m d S x k := by
  have hr : ∀ t ∈ ts, ∀ ℓ ∈ t.leafIdx, ∀ j, ¬ UsesColumn ts j → t.leafRect ℓ j = Ival.all := fun t ht ℓ hℓ => leafRect_unused hw ht hℓ
  have hR : ∀ j, UsesColumn ts j → (j ∈ List.range m' ↔ j ∈ List.range m) := by
    intro j hu
    have := usesColumn_lt hw hu
    simp only [List.mem_range]
    omega
  have hd : List.Forall₂ (fun z z' : Row => ∀ j, UsesColumn ts j → z' j = z j) d d := by
    rw [List.forall₂_same]; exact fun _ _ _ _ => rfl
  have hcc : ∀ t ∈ ts, ∀ ℓ ∈ t.leafIdx, cntCC d (t.leafRect ℓ) (List.range m') = cntCC d (t.leafRect ℓ) (List.range m) :=
    fun t ht ℓ hℓ => cntCC_used (hr t ht ℓ hℓ) hR hd
  refine ⟨?_, ?_, ?_, ?_⟩
  · have hw' : ∀ t ∈ ts, WellFormed t m' := fun t ht => wellFormed_mono (hw t ht) hmm
    have hC' : ValidGroups m' C := by
      rcases hC with h | ⟨h1, h2, h3⟩
      · exact Or.inl h
      · exact Or.inr ⟨h1, fun g hg => ⟨(h2 g hg).1, (h2 g hg).2.1, fun s hs => ((h2 g hg).2.2 s hs).trans_le hmm⟩, h3⟩
    have hsub : playerSet m C ⊆ playerSet m' C := by
      intro g hg
      rw [mem_playerSet] at hg ⊢
      rcases hg with h | ⟨i, hi, h⟩
      · exact Or.inl h
      · exact Or.inr ⟨i, hi.trans_le hmm, h⟩
    obtain ⟨g, hg, hjg⟩ : ∃ g ∈ playerSet m C, j ∈ g := by
      by_cases h : ∃ g ∈ C, j ∈ g
      · obtain ⟨g, h1, h2⟩ := h
        exact ⟨g, mem_playerSet.2 (Or.inl ⟨h1, List.ne_nil_of_mem h2⟩), h2⟩
      · push Not at h
        exact ⟨[j], mem_playerSet.2 (Or.inr ⟨j, hj, h, rfl⟩), by simp⟩
    rw [shapCy_eq hw' hC' hm' x k (hsub hg) hjg, shapCy_eq hw hC (hmm.trans_lt hm') x k hg hjg]
    have hbox : ∀ t ∈ ts, ∀ ℓ ∈ t.leafIdx, ∀ z, InBox m' (t.leafRect ℓ) z ↔ InBox m (t.leafRect ℓ) z := by
      intro t ht ℓ hℓ z
      constructor
      · exact fun h j hj => h j (hj.trans_le hmm)
      · intro h i _
        by_cases hi : i < m
        · exact h i hi
        · rw [hr t ht ℓ hℓ i fun hu => hi (usesColumn_lt hw hu)]
          simp [Ival.all]
    have hgame : leafGame ts m' d x k = leafGame ts m d x k := by
      funext T
      unfold leafGame
      congr 1
      refine List.map_congr_left fun t ht => ?_
      congr 1
      refine List.map_congr_left fun ℓ hℓ => ?_
      unfold leafShare
      rw [show InBox m' (t.leafRect ℓ) = InBox m (t.leafRect ℓ) from funext fun z => propext (hbox t ht ℓ hℓ z)]
    rw [hgame]
    refine shapley_restrict hsub hg fun a ha hna T => ?_
    have hun : ∀ s ∈ a, ¬ UsesColumn ts s := by
      intro s hs hu
      have hsm := usesColumn_lt hw hu
      rw [mem_playerSet] at ha hna
      rcases ha with h | ⟨i, hi, h, rfl⟩
      · exact hna (Or.inl h)
      · rw [List.mem_singleton] at hs
        subst hs
        exact hna (Or.inr ⟨s, hsm, h, rfl⟩)
    unfold leafGame
    congr 1
    refine List.map_congr_left fun t ht => ?_
    congr 1
    refine List.map_congr_left fun ℓ hℓ => ?_
    have hag : ∀ z, AgreesOn (t.leafRect ℓ) (insert a T) z ↔ AgreesOn (t.leafRect ℓ) T z := by
      intro z
      unfold AgreesOn
      simp only [Finset.mem_insert, forall_eq_or_imp]
      refine ⟨fun h => h.2, fun h => ⟨fun s hs => ?_, h⟩⟩
      rw [hr t ht ℓ hℓ s (hun s hs)]
      simp [Ival.all]
    unfold leafShare
    rw [show (AgreesOn (t.leafRect ℓ) (insert a T)) = AgreesOn (t.leafRect ℓ) T from funext fun z => propext (hag z)]
  · exact sumLeaves_congr' fun t ht ℓ hℓ => by rw [hcc t ht ℓ hℓ]
  · unfold expPy
    split
    · rfl
    · congr 1
      exact sumLeaves_congr' fun t ht ℓ hℓ => by rw [hcc t ht ℓ hℓ]
  · unfold expNormCy
    congr 1
    refine List.map_congr_left fun t ht => ?_
    unfold expNormTree
    have hm : ∀ ℓ ∈ t.leafIdx.filter (fun ℓ => satCC (t.leafRect ℓ) S x), cntCC d (t.leafRect ℓ) (List.range m') = cntCC d (t.leafRect ℓ) (List.range m) :=
      fun ℓ hℓ => hcc t ht ℓ (List.mem_filter.1 hℓ).1
    dsimp only
    generalize t.leafIdx.filter (fun ℓ => satCC (t.leafRect ℓ) S x) = fits at hm
    have e1 : (fits.any fun ℓ => decide (cnt d (t.leafRect ℓ) S = 0 ∧ cntCC d (t.leafRect ℓ) (List.range m') = 0)) =
        fits.any fun ℓ => decide (cnt d (t.leafRect ℓ) S = 0 ∧ cntCC d (t.leafRect ℓ) (List.range m) = 0) := by
      rw [Bool.eq_iff_iff, List.any_eq_true, List.any_eq_true]
      exact exists_congr fun ℓ => and_congr_right fun hℓ => by rw [hm ℓ hℓ]
    have e3 : (fits.map fun ℓ => (cntCC d (t.leafRect ℓ) (List.range m') : ℚ) / cnt d (t.leafRect ℓ) S) =
        fits.map fun ℓ => (cntCC d (t.leafRect ℓ) (List.range m) : ℚ) / cnt d (t.leafRect ℓ) S :=
      List.map_congr_left fun ℓ hℓ => by rw [hm ℓ hℓ]
    rw [e1, e3]
    split
    · rfl
    · split
      · rfl
      · congr 2
        exact List.map_congr_left fun ℓ hℓ => by rw [hm ℓ hℓ]

/-! ## Same decision probabilities of the leaf estimator -/

/-- **C118, same decision probabilities**: unused columns may be changed in the data and in the observation, and added to or removed from the set,
as long as neither set is empty or has `m` columns (these two cases do not look at the data). The class or the output of the model is the same
for rows that agree on the used columns, as `C118_predict` says. -/
theorem C118_sdp {m : Nat} {ts : List TreeArr} (hw : ∀ t ∈ ts, WellFormed t m) {d d' : List Row} (hd : List.Forall₂ (SameUsed ts) d d')
    {x x' : Row} (hx : SameUsed ts x x') {S S' : List Nat} (hS : SameUsedColumns ts S S') (hl : S.length ≠ m) (hl' : S'.length ≠ m)
    (hne : S ≠ []) (hne' : S' ≠ []) {lab : Row → Nat} (hlab : ∀ z z', SameUsed ts z z' → lab z' = lab z)
    {y : Row → ℚ} (hy : ∀ z z', SameUsed ts z z' → y z' = y z) (tX : ℚ) :
    sdpClfPy ts m lab d' S' x' = sdpClfPy ts m lab d S x ∧ sdpClfCy ts m lab d' S' x' = sdpClfCy ts m lab d S x ∧
    sdpRegPy ts m y tX d' S' x' = sdpRegPy ts m y tX d S x := by
  have hr : ∀ t ∈ ts, ∀ ℓ ∈ t.leafIdx, ∀ j, ¬ UsesColumn ts j → t.leafRect ℓ j = Ival.all := fun t ht ℓ hℓ => leafRect_unused hw ht hℓ
  have hR : ∀ j, UsesColumn ts j → (j ∈ List.range m ↔ j ∈ List.range m) := fun _ _ => Iff.rfl
  have hlx := hlab _ _ hx
  have hyx := hy _ _ hx
  have hs : ∀ t ∈ ts, ∀ ℓ ∈ t.leafIdx, satCC (t.leafRect ℓ) S' x' = satCC (t.leafRect ℓ) S x := fun t ht ℓ hℓ => satCC_used (hr t ht ℓ hℓ) hS hx
  refine ⟨?_, ?_, ?_⟩
  · unfold sdpClfPy
    rw [if_neg hl, if_neg hl', if_neg hne, if_neg hne']
    have hmean : ∀ rows rows', List.Forall₂ (SameUsed ts) rows rows' → (sumLeaves ts (lab x') fun r v =>
        if satCC r S' x' then guardDiv (cntCC rows' r (List.range m) * v) (cntCC rows' r S') else 0) = sumLeaves ts (lab x) fun r v =>
        if satCC r S x then guardDiv (cntCC rows r (List.range m) * v) (cntCC rows r S) else 0 := by
      intro rows rows' h
      rw [hlx]
      refine sumLeaves_congr' fun t ht ℓ hℓ => ?_
      simp only [hs t ht ℓ hℓ, cntCC_used (hr t ht ℓ hℓ) hR h, cntCC_used (hr t ht ℓ hℓ) hS h]
    have hup := forall₂_filter (p := fun z => decide (lab z = lab x)) (p' := fun z => decide (lab z = lab x'))
      (fun z z' h => by rw [hlab z z' h, hlx]) hd
    have hdn := forall₂_filter (p := fun z => decide (lab z ≠ lab x)) (p' := fun z => decide (lab z ≠ lab x'))
      (fun z z' h => by rw [hlab z z' h, hlx]) hd
    have e1 := hmean _ _ hd
    have e2 := hmean _ _ hup
    have e3 := hmean _ _ hdn
    dsimp only
    rw [e1, e2, e3]
  · unfold sdpClfCy
    rw [if_neg hl, if_neg hl', if_neg hne, if_neg hne']
    have hmean : ∀ rows rows', List.Forall₂ (SameUsed ts) rows rows' → (ts.map fun t => (t.leafIdx.map fun ℓ => guardDiv
        (if satCC (t.leafRect ℓ) S' x' then
          guardDiv (cntCC rows' (t.leafRect ℓ) (List.range m) * t.value ℓ (lab x')) (cntCC rows' (t.leafRect ℓ) S') else 0)
        ((t.leafIdx.map fun ℓ => if satCC (t.leafRect ℓ) S' x' then
          guardDiv (cntCC rows' (t.leafRect ℓ) (List.range m)) (cntCC rows' (t.leafRect ℓ) S') else 0).sum)).sum).sum =
        (ts.map fun t => (t.leafIdx.map fun ℓ => guardDiv
        (if satCC (t.leafRect ℓ) S x then
          guardDiv (cntCC rows (t.leafRect ℓ) (List.range m) * t.value ℓ (lab x)) (cntCC rows (t.leafRect ℓ) S) else 0)
        ((t.leafIdx.map fun ℓ => if satCC (t.leafRect ℓ) S x then
          guardDiv (cntCC rows (t.leafRect ℓ) (List.range m)) (cntCC rows (t.leafRect ℓ) S) else 0).sum)).sum).sum := by
      intro rows rows' h
      rw [hlx]
      congr 1
      refine List.map_congr_left fun t ht => ?_
      have e : (t.leafIdx.map fun ℓ => if satCC (t.leafRect ℓ) S' x' then
          guardDiv (cntCC rows' (t.leafRect ℓ) (List.range m)) (cntCC rows' (t.leafRect ℓ) S') else 0) =
          t.leafIdx.map fun ℓ => if satCC (t.leafRect ℓ) S x then
          guardDiv (cntCC rows (t.leafRect ℓ) (List.range m)) (cntCC rows (t.leafRect ℓ) S) else 0 :=
        List.map_congr_left fun ℓ hℓ => by
          simp only [hs t ht ℓ hℓ, cntCC_used (hr t ht ℓ hℓ) hR h, cntCC_used (hr t ht ℓ hℓ) hS h]
      rw [e]
      congr 1
      refine List.map_congr_left fun ℓ hℓ => ?_
      simp only [hs t ht ℓ hℓ, cntCC_used (hr t ht ℓ hℓ) hR h, cntCC_used (hr t ht ℓ hℓ) hS h]
    have hup := forall₂_filter (p := fun z => decide (lab x = lab z)) (p' := fun z => decide (lab x' = lab z))
      (fun z z' h => by rw [hlab z z' h, hlx]) hd
    have hdn := forall₂_filter (p := fun z => decide (¬ lab x = lab z)) (p' := fun z => decide (¬ lab x' = lab z))
      (fun z z' h => by rw [hlab z z' h, hlx]) hd
    have e1 := hmean _ _ hd
    have e2 := hmean _ _ hup
    have e3 := hmean _ _ hdn
    dsimp only
    rw [e1, e2, e3]
  · unfold sdpRegPy
    rw [if_neg hl, if_neg hl', if_neg hne, if_neg hne']
    have hmean : ∀ rows rows', List.Forall₂ (SameUsed ts) rows rows' → regLeafMean ts m S' x' (y x') rows' = regLeafMean ts m S x (y x) rows := by
      intro rows rows' h
      rw [hyx]
      refine sumTreePairs_congr (fun t ht => ?_) fun t ht t' ht' => ?_
      · congr 1
        refine List.map_congr_left fun ℓ hℓ => ?_
        simp only [hs t ht ℓ hℓ, cntCC_used (hr t ht ℓ hℓ) hR h, cntCC_used (hr t ht ℓ hℓ) hS h]
      · congr 1
        refine List.map_congr_left fun ℓ hℓ => ?_
        congr 1
        refine List.map_congr_left fun ℓ' hℓ' => ?_
        simp only [hs t ht ℓ hℓ, hs t' ht' ℓ' hℓ', cntCC2_used (hr t ht ℓ hℓ) (hr t' ht' ℓ' hℓ') hR h,
          cntCC2_used (hr t ht ℓ hℓ) (hr t' ht' ℓ' hℓ') hS h]
    have hup := forall₂_filter (p := fun z => farOut tX (y x) (y z)) (p' := fun z => farOut tX (y x') (y z))
      (fun z z' h => by rw [hy z z' h, hyx]) hd
    have hdn := forall₂_filter (p := fun z => !farOut tX (y x) (y z)) (p' := fun z => !farOut tX (y x') (y z))
      (fun z z' h => by rw [hy z z' h, hyx]) hd
    have e1 := hmean _ _ hd
    have e2 := hmean _ _ hup
    have e3 := hmean _ _ hdn
    dsimp only
    rw [e1, e2, e3]

/-! ## Examples -/

theorem splitOn_uses {f j : Nat} {thr : ℚ} : UsesColumn [splitOn f thr] j ↔ j = f := by
  constructor
  · rintro ⟨t, ht, n, hn, hl, hf⟩
    rw [List.mem_singleton] at ht
    subst ht
    simp only [splitOn] at hn hl hf
    rcases n with _ | _ | _ | n
    · simpa using hf.symm
    · simp at hl
    · simp at hl
    · omega
  · rintro rfl
    exact ⟨_, List.mem_singleton_self _, 0, by simp [splitOn], by simp [splitOn], by simp [splitOn]⟩

theorem splitOn_wf {f m : Nat} (hf : f < m) (thr : ℚ) : ∀ t ∈ [splitOn f thr], WellFormed t m := by
  intro t ht
  rw [List.mem_singleton] at ht
  subst ht
  exact ⟨_, splitOn_isTree hf thr⟩

/-- The tree tests column 1 of three; the rows and the observation differ in columns 0 and 2, the sets in column 2. -/
example : (∀ t ∈ [splitOn 1 2], WellFormed t 3) ∧
    List.Forall₂ (SameUsed [splitOn 1 2]) [fun _ => 1, fun _ => 4] [fun j => if j = 1 then 1 else 7, fun j => if j = 1 then 4 else 8] ∧
    SameUsed [splitOn 1 2] (fun _ => 1) (fun j => if j = 1 then 1 else 9) ∧ SameUsedColumns [splitOn 1 2] [1] [2, 1] ∧
    expCy [splitOn 1 2] 3 [fun _ => 1, fun _ => 4] [1] (fun _ => 1) 0 = 10 ∧
    shapCy [splitOn 1 2] 3 [fun _ => 1, fun _ => 4] [[]] (fun _ => 1) 1 0 = -5 := by
  refine ⟨splitOn_wf (by norm_num) 2, ?_, ?_, ?_, by decide +kernel, by decide +kernel⟩
  · refine .cons ?_ (.cons ?_ .nil) <;>
    · intro j hj
      rw [splitOn_uses] at hj
      subst hj
      simp
  · intro j hj
    rw [splitOn_uses] at hj
    subst hj
    simp
  · intro j hj
    rw [splitOn_uses] at hj
    subst hj
    simp

/-- The labels of `C118_sdp`: a label read off the used column. -/
example : ∀ z z' : Row, SameUsed [splitOn 1 2] z z' → (if z' 1 ≤ 2 then 0 else 1 : Nat) = if z 1 ≤ 2 then 0 else 1 := by
  intro z z' h
  rw [h 1 (splitOn_uses.2 rfl)]

/-- The same claim about the categorical estimator, whose condition is equality on the set. -/
def C118_cat_claim : Prop := ∀ (m : Nat) (ts : List TreeArr), (∀ t ∈ ts, WellFormed t m) → ∀ (d : List Row) (x : Row) (S S' : List Nat),
  SameUsedColumns ts S S' → ∀ k, expCatCy ts m d S' x k = expCatCy ts m d S x k

/-- It is false: fixing an unused column keeps only the rows with the same entry there. -/
theorem C118_cat_false : ¬ C118_cat_claim := by
  intro h
  have := h 3 [splitOn 1 2] (splitOn_wf (by norm_num) 2) [fun _ => 1, fun _ => 4] (fun _ => 1) [] [2] (by
    intro j hj
    rw [splitOn_uses] at hj
    subst hj
    simp) 0
  revert this
  decide +kernel

end Acv
