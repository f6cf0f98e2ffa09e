import Verif.Lemmas.Numbering
import Verif.Model.DdpRule
import Verif.Props.Counterfactual
import Verif.Props.Shapley

/-!
# C117: explanations do not depend on the numbering of the columns

Column `j` becomes column `π j`, in the data, in the trees, in the sets and in the groups (`Verif.Spec.Numbering`). The answers about
column `π j` must be the old answers about column `j`.
-/

namespace Acv

variable {π : Equiv.Perm Nat}

/-! ## Prediction -/

theorem maxNodes_renum (ts : List TreeArr) : maxNodes (ts.map (TreeArr.renum π)) = maxNodes ts := by
  unfold maxNodes
  rw [List.map_map]
  rfl

theorem packedWalk_renum {ts : List TreeArr} (hs : ∀ t ∈ ts, SplitsOnColumns t) (x : Obs) (off : Nat) : ∀ (fuel n : Nat),
    (pack (ts.map (TreeArr.renum π))).walk (renumObs π x) off fuel n = (pack ts).walk x off fuel n := by
  have hl : (pack (ts.map (TreeArr.renum π))).left = (pack ts).left := by
    funext pos
    simp only [pack, maxNodes_renum]
    rcases lt_or_ge (pos / maxNodes ts) ts.length with h | h
    · simp [List.getD_eq_getElem?_getD, List.getElem?_map, List.getElem?_eq_getElem h, TreeArr.renum]
    · simp [List.getD_eq_getElem?_getD, List.getElem?_map, List.getElem?_eq_none h]
  have hr : (pack (ts.map (TreeArr.renum π))).right = (pack ts).right := by
    funext pos
    simp only [pack, maxNodes_renum]
    rcases lt_or_ge (pos / maxNodes ts) ts.length with h | h
    · simp [List.getD_eq_getElem?_getD, List.getElem?_map, List.getElem?_eq_getElem h, TreeArr.renum]
    · simp [List.getD_eq_getElem?_getD, List.getElem?_map, List.getElem?_eq_none h]
  have hd : (pack (ts.map (TreeArr.renum π))).dflt = (pack ts).dflt := by
    funext pos
    simp only [pack, maxNodes_renum]
    rcases lt_or_ge (pos / maxNodes ts) ts.length with h | h
    · simp [List.getD_eq_getElem?_getD, List.getElem?_map, List.getElem?_eq_getElem h, TreeArr.renum]
    · simp [List.getD_eq_getElem?_getD, List.getElem?_map, List.getElem?_eq_none h]
  have ht : (pack (ts.map (TreeArr.renum π))).threshold = (pack ts).threshold := by
    funext pos
    simp only [pack, maxNodes_renum]
    rcases lt_or_ge (pos / maxNodes ts) ts.length with h | h
    · simp [List.getD_eq_getElem?_getD, List.getElem?_map, List.getElem?_eq_getElem h, TreeArr.renum]
    · simp [List.getD_eq_getElem?_getD, List.getElem?_map, List.getElem?_eq_none h]
  have hf : ∀ pos, ¬ (pack ts).left pos < 0 → (pack (ts.map (TreeArr.renum π))).feature pos = renumFeature π ((pack ts).feature pos) ∧
      0 ≤ (pack ts).feature pos := by
    intro pos hp
    simp only [pack, maxNodes_renum] at hp ⊢
    rcases lt_or_ge (pos / maxNodes ts) ts.length with h | h
    · by_cases hsz : pos % maxNodes ts < ts[pos / maxNodes ts].size
      · simp only [List.getD_eq_getElem?_getD, List.getElem?_map, List.getElem?_eq_getElem h, TreeArr.renum, hsz, Option.getD_some,
          Option.map_some, if_true] at hp ⊢
        exact ⟨trivial, hs _ (List.getElem_mem h) _ hsz (Or.inl (not_lt.1 hp))⟩
      · exfalso
        apply hp
        simp [List.getD_eq_getElem?_getD, List.getElem?_eq_getElem h, hsz]
    · exfalso
      apply hp
      simp [List.getD_eq_getElem?_getD, List.getElem?_eq_none h, TreeArr.empty]
  intro fuel
  induction fuel with
  | zero => intro n; simp only [Packed.walk, hl]
  | succ fuel ih =>
    intro n
    simp only [Packed.walk, hl, hr, hd, ht, ih]
    by_cases hp : (pack ts).left (off + n) < 0
    · simp only [hp, if_true]
    · obtain ⟨h1, h2⟩ := hf _ hp
      simp only [hp, if_false, h1, renumFeature_toNat h2, renumObs, π.symm_apply_apply]

/-- **C117, predictions** (so the renumbered model is the same model), also for observations with missing entries. -/
theorem C117_predict {ts : List TreeArr} {d : Nat} (hw : ∀ t ∈ ts, WellFormed t d) (x : Obs) (dfltLimit arg : Option Int) (base : Nat → ℚ)
    (k : Nat) :
    ensemblePredict (ts.map (TreeArr.renum π)) dfltLimit arg base (renumObs π x) k = ensemblePredict ts dfltLimit arg base x k := by
  have hv : (pack (ts.map (TreeArr.renum π))).value = (pack ts).value := by
    funext pos
    simp only [pack, maxNodes_renum]
    rcases lt_or_ge (pos / maxNodes ts) ts.length with h | h
    · simp [List.getD_eq_getElem?_getD, List.getElem?_map, List.getElem?_eq_getElem h, TreeArr.renum]
    · simp [List.getD_eq_getElem?_getD, List.getElem?_map, List.getElem?_eq_none h]
  have hn : (pack (ts.map (TreeArr.renum π))).numTrees = (pack ts).numTrees := by simp [pack]
  have hm : (pack (ts.map (TreeArr.renum π))).maxNodes = (pack ts).maxNodes := by simp only [pack, maxNodes_renum]
  unfold ensemblePredict Packed.predict
  simp only [hn, hm, packedWalk_renum fun t ht => (hw t ht).splits, hv]

/-! ## Leaf-based estimators -/

theorem cyTerm_renum {m : Nat} (hπ : ∀ j, π j < m ↔ j < m) (d : List Row) (r : Rect) (x : Row) (va : List Nat) (rest : List (List Nat))
    (counter : Nat) : cyTerm m (d.map (renumRow π)) (renumRect π r) (renumRow π x) (va.map π) (rest.map (List.map π)) counter =
      cyTerm m d r x va rest counter := by
  simp only [cyTerm, maskSel_map, flatten_renum, cnt_renum, cnt_renum_range hπ, sat_renum, filter_renum, List.length_map]

theorem normTerm_renum {m : Nat} (hπ : ∀ j, π j < m ↔ j < m) (d : List Row) (rs : List Rect) (r : Rect) (x : Row) (va : List Nat)
    (rest : List (List Nat)) (counter : Nat) :
    normTerm m (d.map (renumRow π)) (rs.map (renumRect π)) (renumRect π r) (renumRow π x) (va.map π) (rest.map (List.map π)) counter =
      normTerm m d rs r x va rest counter := by
  simp only [normTerm, maskSel_map, flatten_renum, cnt_renum, cnt_renum_range hπ, sat_renum, filter_renum, List.length_map, List.map_map,
    Function.comp_def]

theorem count_renum (va : List Nat) (j : Nat) : (va.map π).count (π j) = va.count j :=
  List.count_map_of_injective va π π.injective j

theorem sumLeaves_renum {ts : List TreeArr} (hs : ∀ t ∈ ts, SplitsOnColumns t) (k : Nat) (g : Rect → ℚ → ℚ) :
    sumLeaves (ts.map (TreeArr.renum π)) k g = sumLeaves ts k fun r v => g (renumRect π r) v := by
  unfold sumLeaves
  rw [List.map_map]
  congr 1
  refine List.map_congr_left fun t ht => ?_
  show (t.leafIdx.map fun ℓ => g ((t.renum π).leafRect ℓ) (t.value ℓ k)).sum = _
  simp only [leafRect_renum (hs t ht)]

/-- **C117, Shapley values and conditional expectations**: `C` are groups of columns, `S` a set of columns, `j` a column. -/
theorem C117_leaf {m : Nat} (hπ : ∀ j, π j < m ↔ j < m) {ts : List TreeArr} (hw : ∀ t ∈ ts, WellFormed t m) (d : List Row)
    {C : List (List Nat)} (hC : ValidGroups m C) (S : List Nat) (x : Row) (j k : Nat) :
    shapCy (ts.map (TreeArr.renum π)) m (d.map (renumRow π)) (C.map (List.map π)) (renumRow π x) (π j) k = shapCy ts m d C x j k ∧
    shapNorm (ts.map (TreeArr.renum π)) m (d.map (renumRow π)) (C.map (List.map π)) (renumRow π x) (π j) k = shapNorm ts m d C x j k ∧
    expCy (ts.map (TreeArr.renum π)) m (d.map (renumRow π)) (S.map π) (renumRow π x) k = expCy ts m d S x k ∧
    expPy (ts.map (TreeArr.renum π)) m (d.map (renumRow π)) (S.map π) (renumRow π x) k = expPy ts m d S x k ∧
    expCatCy (ts.map (TreeArr.renum π)) m (d.map (renumRow π)) (S.map π) (renumRow π x) k = expCatCy ts m d S x k ∧
    expNormCy (ts.map (TreeArr.renum π)) m (d.map (renumRow π)) (S.map π) (renumRow π x) k = expNormCy ts m d S x k := by
  have hs : ∀ t ∈ ts, SplitsOnColumns t := fun t ht => (hw t ht).splits
  have hi : ∀ t : TreeArr, (t.renum π).leafIdx = t.leafIdx := fun _ => rfl
  have hv : ∀ t : TreeArr, (t.renum π).value = t.value := fun _ => rfl
  refine ⟨?_, ?_, ?_, ?_, ?_, ?_⟩
  · unfold shapCy
    rw [List.map_map]
    congr 2
    refine List.map_congr_left fun t ht => ?_
    simp only [Function.comp_def, hi, hv, leafRect_renum (hs t ht), leafCols_renum (hs t ht)]
    congr 1
    refine List.map_congr_left fun ℓ _ => ?_
    congr 1
    unfold cyLeafPhi
    rw [((playersCy_renum hπ hC).map _).sum_eq, List.map_map, leafPlayersCy_renum hπ]
    simp only [Function.comp_def, List.mem_map_of_injective mapπ_injective, ← List.map_erase mapπ_injective, List.length_map, count_renum,
      cyTerm_renum hπ]
  · unfold shapNorm
    rw [List.map_map]
    congr 2
    refine List.map_congr_left fun t ht => ?_
    simp only [Function.comp_def, hi, hv, leafRect_renum (hs t ht), leafCols_renum (hs t ht)]
    congr 1
    refine List.map_congr_left fun ℓ _ => ?_
    congr 1
    have e : (t.leafIdx.map fun ℓ => renumRect π (t.leafRect ℓ)) = (t.leafIdx.map t.leafRect).map (renumRect π) := by
      rw [List.map_map]; rfl
    have e' : t.leafIdx.map (t.renum π).leafRect = (t.leafIdx.map t.leafRect).map (renumRect π) := by
      rw [← e]; exact List.map_congr_left fun ℓ _ => leafRect_renum (hs t ht) ℓ
    rw [e']
    unfold normLeafPhi
    rw [((playersCy_renum hπ hC).map _).sum_eq, List.map_map, leafPlayersCy_renum hπ]
    simp only [Function.comp_def, List.mem_map_of_injective mapπ_injective, ← List.map_erase mapπ_injective, List.length_map, count_renum,
      normTerm_renum hπ]
  · simp only [expCy, sumLeaves_renum hs, satCC_renum, cntCC_renum_range hπ, cnt_renum]
  · simp only [expPy, sumLeaves_renum hs, satCC_renum, cntCC_renum_range hπ, cntCC_renum, List.map_eq_nil_iff]
  · simp only [expCatCy, sumLeaves_renum hs, sat_renum, sat_renum_range hπ, eqOn_renum, filter_renum, List.length_map]
  · unfold expNormCy
    rw [List.map_map]
    congr 1
    refine List.map_congr_left fun t ht => ?_
    simp only [Function.comp_def, expNormTree, hi, hv, leafRect_renum (hs t ht), satCC_renum, cntCC_renum_range hπ, cnt_renum]

/-- **C117, Active Shapley values**: `S` and `N` are the active and the null columns. -/
theorem C117_active {m : Nat} (hπ : ∀ j, π j < m ↔ j < m) {ts : List TreeArr} (hw : ∀ t ∈ ts, WellFormed t m) (d : List Row)
    (C : List (List Nat)) (S N : List Nat) (x : Row) (j k : Nat) :
    activeCy (ts.map (TreeArr.renum π)) m (d.map (renumRow π)) (C.map (List.map π)) (S.map π) (N.map π) (renumRow π x) (π j) k =
      activeCy ts m d C S N x j k := by
  have hs : ∀ t ∈ ts, SplitsOnColumns t := fun t ht => (hw t ht).splits
  have hfree : ∀ i, π i ∈ activeFree (C.map (List.map π)) (S.map π) ↔ i ∈ activeFree C S := by
    intro i
    unfold activeFree
    rw [List.mem_filter, List.mem_filter, flatten_renum]
    simp only [decide_eq_true_eq, map_mem_iff]
  have hplay : activePlayersCy (C.map (List.map π)) (S.map π) = (activePlayersCy C S).map (List.map π) := by
    unfold activePlayersCy
    rw [hasGroups_renum]
    by_cases h : hasGroups C = true
    · rw [if_pos h, if_pos h, groupUp_renum hfree]
    · rw [if_neg h, if_neg h, List.map_map, List.map_map]
      rfl
  have hnode : ∀ vars : List Nat, activeLeafPlayersCy (C.map (List.map π)) (S.map π) (N.map π) (vars.map π) =
      (activeLeafPlayersCy C S N vars).map (List.map π) := by
    intro vars
    unfold activeLeafPlayersCy activeVars
    rw [hasGroups_renum, ← List.map_diff π.injective]
    by_cases h : hasGroups C = true
    · rw [if_pos h, if_pos h, groupUp_renum hfree]
    · rw [if_neg h, if_neg h, List.map_map, List.map_map]
      rfl
  have hterm : ∀ (n : Nat) (r : Rect) (va : List Nat) (rest : List (List Nat)) (c : Nat) (v : ℚ),
      activeTerm n m (d.map (renumRow π)) (renumRect π r) (renumRow π x) (N.map π) (va.map π) (rest.map (List.map π)) c v =
        activeTerm n m d r x N va rest c v := by
    intro n r va rest c v
    simp only [activeTerm, maskSel_map, flatten_renum, ← List.map_append, cnt_renum, cnt_renum_range hπ, sat_renum, filter_renum, List.length_map]
  have hoff : ∀ (r : Rect) (v : ℚ), activeOffTerm m (d.map (renumRow π)) (renumRect π r) (renumRow π x) (N.map π) v = activeOffTerm m d r x N v := by
    intro r v
    simp only [activeOffTerm, cnt_renum, cnt_renum_range hπ, sat_renum, List.length_map]
  have hwr : ∀ (r : Rect) (vars : List Nat) (v : ℚ), activeLeafWrites m (d.map (renumRow π)) (C.map (List.map π)) (S.map π) (N.map π)
      (renumRect π r) (vars.map π) (renumRow π x) v = (activeLeafWrites m d C S N r vars x v).map fun w => (π w.1, w.2) := by
    intro r vars v
    unfold activeLeafWrites
    simp only [hplay, hnode, List.flatMap_map, List.map_flatMap, List.mem_map_of_injective mapπ_injective, ← List.map_erase mapπ_injective,
      List.length_map, hterm, hoff, List.map_map, Function.comp_def]
    refine List.flatMap_congr fun va _ => ?_
    split <;> simp only [List.map_flatMap, List.map_map, Function.comp_def]
  have hcell : ∀ ws : List (Nat × Option ℚ), cellWrites (ws.map fun w => (π w.1, w.2)) (π j) = cellWrites ws j := by
    intro ws
    unfold cellWrites
    rw [List.filter_map, List.map_map]
    simp only [Function.comp_def, π.injective.eq_iff]
  have hall : ((ts.map (TreeArr.renum π)).flatMap fun t => t.leafIdx.flatMap fun ℓ => activeLeafWrites m (d.map (renumRow π)) (C.map (List.map π))
      (S.map π) (N.map π) (t.leafRect ℓ) (t.leafCols ℓ) (renumRow π x) (t.value ℓ k)) =
      (ts.flatMap fun t => t.leafIdx.flatMap fun ℓ => activeLeafWrites m d C S N (t.leafRect ℓ) (t.leafCols ℓ) x (t.value ℓ k)).map
        fun w => (π w.1, w.2) := by
    rw [List.flatMap_map, List.map_flatMap]
    refine List.flatMap_congr fun t ht => ?_
    rw [List.map_flatMap]
    refine List.flatMap_congr fun ℓ _ => ?_
    rw [leafRect_renum (hs t ht), leafCols_renum (hs t ht), hwr]
    rfl
  unfold activeCy
  rw [hall, hcell, hplay, List.length_map]

/-- **C117, same decision probabilities of a tree ensemble**: `lab` and `y` are the predictions of the model, `lab'` and `y'` those of the
renumbered model. -/
theorem C117_sdp {m : Nat} (hπ : ∀ j, π j < m ↔ j < m) {ts : List TreeArr} (hw : ∀ t ∈ ts, WellFormed t m) (d : List Row)
    {lab lab' : Row → Nat} {y y' : Row → ℚ} (hlab : ∀ z, lab' (renumRow π z) = lab z) (hy : ∀ z, y' (renumRow π z) = y z) (tX : ℚ)
    (S : List Nat) (x : Row) :
    sdpClfPy (ts.map (TreeArr.renum π)) m lab' (d.map (renumRow π)) (S.map π) (renumRow π x) = sdpClfPy ts m lab d S x ∧
    sdpClfCy (ts.map (TreeArr.renum π)) m lab' (d.map (renumRow π)) (S.map π) (renumRow π x) = sdpClfCy ts m lab d S x ∧
    sdpClfCat (ts.map (TreeArr.renum π)) m lab' (d.map (renumRow π)) (S.map π) (renumRow π x) = sdpClfCat ts m lab d S x ∧
    sdpRegCatCy (ts.map (TreeArr.renum π)) m y' tX (d.map (renumRow π)) (S.map π) (renumRow π x) = sdpRegCatCy ts m y tX d S x ∧
    sdpRegPy (ts.map (TreeArr.renum π)) m y' tX (d.map (renumRow π)) (S.map π) (renumRow π x) = sdpRegPy ts m y tX d S x := by
  have hs : ∀ t ∈ ts, SplitsOnColumns t := fun t ht => (hw t ht).splits
  have hi : ∀ t : TreeArr, (t.renum π).leafIdx = t.leafIdx := fun _ => rfl
  have hv : ∀ t : TreeArr, (t.renum π).value = t.value := fun _ => rfl
  have hpairs : ∀ (diag diag' : TreeArr → ℚ) (off off' : TreeArr → TreeArr → ℚ), (∀ t ∈ ts, diag' (t.renum π) = diag t) →
      (∀ t ∈ ts, ∀ t' ∈ ts, off' (t.renum π) (t'.renum π) = off t t') →
      sumTreePairs (ts.map (TreeArr.renum π)) diag' off' = sumTreePairs ts diag off := by
    intro diag diag' off off' h1 h2
    simp only [sumTreePairs, List.zipIdx_map, List.map_map, Function.comp_def, Prod.map, id]
    congr 1
    refine List.map_congr_left fun p hp => ?_
    have hp1 : p.1 ∈ ts := List.fst_mem_of_mem_zipIdx hp
    congr 1
    refine List.map_congr_left fun q hq => ?_
    have hq1 : q.1 ∈ ts := List.fst_mem_of_mem_zipIdx hq
    rw [h1 _ hp1, h2 _ hp1 _ hq1]
  refine ⟨?_, ?_, ?_, ?_, ?_⟩
  · simp only [sdpClfPy, hlab, filter_renum, sumLeaves_renum hs, satCC_renum, cntCC_renum, cntCC_renum_range hπ, List.length_map,
      List.map_eq_nil_iff]
  · have hsum : ∀ f : TreeArr → ℚ, ∀ g : TreeArr → ℚ, (∀ t ∈ ts, f (t.renum π) = g t) → ((ts.map (TreeArr.renum π)).map f).sum = (ts.map g).sum := by
      intro f g h
      rw [List.map_map]
      exact congrArg List.sum (List.map_congr_left h)
    have hmean : ∀ rows : List Row, ((ts.map (TreeArr.renum π)).map fun t =>
        (t.leafIdx.map fun ℓ => guardDiv
          (if satCC (t.leafRect ℓ) (S.map π) (renumRow π x) then
            guardDiv (cntCC (rows.map (renumRow π)) (t.leafRect ℓ) (List.range m) * t.value ℓ (lab x))
              (cntCC (rows.map (renumRow π)) (t.leafRect ℓ) (S.map π)) else 0)
          (t.leafIdx.map fun ℓ => if satCC (t.leafRect ℓ) (S.map π) (renumRow π x) then
            guardDiv (cntCC (rows.map (renumRow π)) (t.leafRect ℓ) (List.range m)) (cntCC (rows.map (renumRow π)) (t.leafRect ℓ) (S.map π))
            else 0).sum).sum).sum =
        (ts.map fun t => (t.leafIdx.map fun ℓ => guardDiv
          (if satCC (t.leafRect ℓ) S x then
            guardDiv (cntCC rows (t.leafRect ℓ) (List.range m) * t.value ℓ (lab x)) (cntCC rows (t.leafRect ℓ) S) else 0)
          (t.leafIdx.map fun ℓ => if satCC (t.leafRect ℓ) S x then
            guardDiv (cntCC rows (t.leafRect ℓ) (List.range m)) (cntCC rows (t.leafRect ℓ) S) else 0).sum).sum).sum := by
      intro rows
      refine hsum _ _ fun t ht => ?_
      simp only [hi, hv, leafRect_renum (hs t ht), satCC_renum, cntCC_renum, cntCC_renum_range hπ]
    simp only [sdpClfCy, hlab, filter_renum, List.length_map, List.map_eq_nil_iff, hmean]
  · simp only [sdpClfCat, hlab, filter_renum, eqOn_renum, sumLeaves_renum hs, satCC_renum, cntCC_renum_range hπ, List.length_map,
      List.map_eq_nil_iff]
  · have hcat : ∀ (fx : ℚ) (rows : List Row), regCatMean (ts.map (TreeArr.renum π)) m (S.map π) (renumRow π x) fx (rows.map (renumRow π)) =
        regCatMean ts m S x fx rows := by
      intro fx rows
      refine hpairs _ _ _ _ (fun t ht => ?_) fun t ht t' ht' => ?_
      · simp only [hi, hv, leafRect_renum (hs t ht), satCC_renum, cntCC_renum_range hπ, List.length_map]
      · simp only [hi, hv, leafRect_renum (hs t ht), leafRect_renum (hs t' ht'), satCC_renum, cntCC2_renum_range hπ, List.length_map]
    simp only [sdpRegCatCy, hy, filter_renum, eqOn_renum, hcat]
  · have hleaf : ∀ (fx : ℚ) (rows : List Row), regLeafMean (ts.map (TreeArr.renum π)) m (S.map π) (renumRow π x) fx (rows.map (renumRow π)) =
        regLeafMean ts m S x fx rows := by
      intro fx rows
      refine hpairs _ _ _ _ (fun t ht => ?_) fun t ht t' ht' => ?_
      · simp only [hi, hv, leafRect_renum (hs t ht), satCC_renum, cntCC_renum_range hπ, cntCC_renum]
      · simp only [hi, hv, leafRect_renum (hs t ht), leafRect_renum (hs t' ht'), satCC_renum, cntCC2_renum_range hπ, cntCC2_renum]
    simp only [sdpRegPy, hy, filter_renum, hleaf, List.length_map, List.map_eq_nil_iff]

/-! ## The projected forest -/

/-- Decisions that agree after the renumbering. A decision for one child is taken on a column only. -/
structure RenumDir (π : Equiv.Perm Nat) (dir dir' : Int → ℚ → Option Bool) : Prop where
  same : ∀ f thr, dir' (renumFeature π f) thr = dir f thr
  column : ∀ f thr b, dir f thr = some b → 0 ≤ f

theorem inS_renum (S : List Nat) (f : Int) : inS (S.map π) (renumFeature π f) = inS S f := by
  unfold inS
  by_cases h : 0 ≤ f
  · simp only [renumFeature_nonneg, h, renumFeature_toNat h, map_mem_iff]
  · simp only [renumFeature_nonneg, h, decide_false, Bool.false_and]

theorem inS_nonneg {S : List Nat} {f : Int} (h : inS S f = true) : 0 ≤ f := by
  unfold inS at h
  simp only [Bool.and_eq_true, decide_eq_true_eq] at h
  exact h.1

theorem dirPoint_renum (x : Row) {f : Int} (h : 0 ≤ f) (thr : ℚ) : dirPoint (renumRow π x) (renumFeature π f) thr = dirPoint x f thr := by
  simp only [dirPoint, renumRow, renumFeature_toNat h, π.symm_apply_apply]

theorem dirBox_renum (c : Rule) : RenumDir π (dirBox c) (dirBox (renumRule π c)) := by
  refine ⟨fun f thr => ?_, fun f thr b h => ?_⟩
  · unfold dirBox
    by_cases h : 0 ≤ f
    · simp only [renumFeature_nonneg, renumFeature_toNat h, renumRule, π.symm_apply_apply]
    · simp only [renumFeature_nonneg, h, false_and, if_false]
  · by_contra hf
    simp [dirBox, hf] at h

theorem dirS_renum (S : List Nat) (x : Row) : RenumDir π (dirS S x) (dirS (S.map π) (renumRow π x)) := by
  refine ⟨fun f thr => ?_, fun f thr b h => ?_⟩
  · unfold dirS
    rw [inS_renum]
    by_cases h : inS S f = true
    · rw [if_pos h, if_pos h, dirPoint_renum x (inS_nonneg h)]
    · rw [if_neg h, if_neg h]
  · unfold dirS at h
    by_cases hi : inS S f = true
    · exact inS_nonneg hi
    · rw [if_neg hi] at h; simp at h

theorem dirCond_renum (S : List Nat) (x : Row) (c : Rule) : RenumDir π (dirCond S x c) (dirCond (S.map π) (renumRow π x) (renumRule π c)) := by
  refine ⟨fun f thr => ?_, fun f thr b h => ?_⟩
  · unfold dirCond
    rw [inS_renum]
    by_cases h : inS S f = true
    · rw [if_pos h, if_pos h, dirPoint_renum x (inS_nonneg h)]
    · rw [if_neg h, if_neg h, (dirBox_renum c).same]
  · unfold dirCond at h
    by_cases hi : inS S f = true
    · exact inS_nonneg hi
    · rw [if_neg hi] at h; exact (dirBox_renum (π := π) c).column f thr b h

theorem dirIntv_renum (S : List Nat) (c : Rule) : RenumDir π (dirIntv S c) (dirIntv (S.map π) (renumRule π c)) := by
  refine ⟨fun f thr => ?_, fun f thr b h => ?_⟩
  · unfold dirIntv
    rw [inS_renum]
    by_cases h : inS S f = true
    · rw [if_pos h, if_pos h]
    · rw [if_neg h, if_neg h, (dirBox_renum c).same]
  · unfold dirIntv at h
    by_cases hi : inS S f = true
    · rw [if_pos hi] at h; simp at h
    · rw [if_neg hi] at h; exact (dirBox_renum (π := π) c).column f thr b h

/-- The state of a walk on the renumbered columns. -/
def renumState (π : Equiv.Perm Nat) (st : PState) : PState := { st with rule := renumRule π st.rule }

theorem below_renum (r : Rule) (f : Nat) (thr : ℚ) : (renumRule π r).below (π f) thr = renumRule π (r.below f thr) := by
  funext j
  unfold Rule.below renumRule
  by_cases h : j = π f
  · subst h
    simp only [if_true, π.symm_apply_apply]
  · have h' : π.symm j ≠ f := fun e => h (by rw [← e, π.apply_symm_apply])
    simp only [h, h', if_false]

theorem above_renum (r : Rule) (f : Nat) (thr : ℚ) : (renumRule π r).above (π f) thr = renumRule π (r.above f thr) := by
  funext j
  unfold Rule.above renumRule
  by_cases h : j = π f
  · subst h
    simp only [if_true, π.symm_apply_apply]
  · have h' : π.symm j ≠ f := fun e => h (by rw [← e, π.apply_symm_apply])
    simp only [h, h', if_false]

theorem visitD_renum {dir dir' : Int → ℚ → Option Bool} (hd : RenumDir π dir dir') (mem : Mem) (push : List Int → Int → List Int)
    (data : Nat → Row) (n : Int) (st : PState) :
    (mem.renum π).visitD push dir' (fun i => renumRow π (data i)) n (renumState π st) = renumState π (mem.visitD push dir data n st) := by
  have e : dir' ((mem.renum π).feat n) ((mem.renum π).thr n) = dir (mem.feat n) (mem.thr n) := hd.same _ _
  unfold Mem.visitD
  rw [e]
  cases h : dir (mem.feat n) (mem.thr n) with
  | none => rfl
  | some b =>
    have hp : ((mem.renum π).feat n).toNat = π (mem.feat n).toNat := renumFeature_toNat (hd.column _ _ _ h)
    have ht : (mem.renum π).thr = mem.thr := rfl
    cases b with
    | true =>
      simp only [hp, ht, renumRow, π.symm_apply_apply, renumState, below_renum]
      rfl
    | false =>
      simp only [hp, ht, renumRow, π.symm_apply_apply, renumState, above_renum]
      rfl

theorem scanD_renum {dir dir' : Int → ℚ → Option Bool} (hd : RenumDir π dir dir') (mem : Mem) (push : List Int → Int → List Int)
    (data : Nat → Row) (minSize : Nat) : ∀ (ns : List Int) (st : PState),
    (mem.renum π).scanD push dir' (fun i => renumRow π (data i)) minSize ns (renumState π st) =
      renumState π (mem.scanD push dir data minSize ns st)
  | [], _ => rfl
  | n :: ns, st => by
    unfold Mem.scanD
    simp only [visitD_renum hd]
    have e : (renumState π (mem.visitD push dir data n st)).rows = (mem.visitD push dir data n st).rows := rfl
    rw [e]
    by_cases hc : (mem.visitD push dir data n st).rows.length < minSize
    · rw [if_pos hc, if_pos hc]
    · rw [if_neg hc, if_neg hc]; exact scanD_renum hd mem push data minSize ns _

theorem levelsD_renum {dir dir' : Int → ℚ → Option Bool} (hd : RenumDir π dir dir') (mem : Mem) (push : List Int → Int → List Int)
    (data : Nat → Row) (minSize : Nat) : ∀ (k : Nat) (ns : List Int) (st : PState),
    (mem.renum π).levelsD push dir' (fun i => renumRow π (data i)) minSize k ns (renumState π st) =
      renumState π (mem.levelsD push dir data minSize k ns st)
  | 0, _, _ => rfl
  | k + 1, ns, st => by
    unfold Mem.levelsD
    simp only [scanD_renum hd]
    exact levelsD_renum hd mem push data minSize k _ _

theorem forestRunD_renum {dir dir' : Int → ℚ → Option Bool} (hd : RenumDir π dir dir') (push : List Int → Int → List Int) (data : Nat → Row)
    (minSize maxDepth N : Nat) : ∀ (mems : List Mem) (r : Rule),
    forestRunD push dir' (fun i => renumRow π (data i)) minSize maxDepth N (mems.map (Mem.renum π)) (renumRule π r) =
      ((forestRunD push dir data minSize maxDepth N mems r).1, renumRule π (forestRunD push dir data minSize maxDepth N mems r).2)
  | [], _ => rfl
  | mem :: mems, r => by
    have h := levelsD_renum hd mem push data minSize maxDepth [0] ⟨[], List.range N, r⟩
    have e : renumState π ⟨[], List.range N, r⟩ = ⟨[], List.range N, renumRule π r⟩ := rfl
    rw [e] at h
    rw [List.map_cons]
    unfold forestRunD Mem.runD
    simp only [h, renumState, forestRunD_renum hd push data minSize maxDepth N mems]

/-- **C117, the projected forest**: the same probabilities, means, distribution functions and weights; the bounds of column `π j` in the rule
are the old bounds of column `j`. -/
theorem C117_forest (mems : List Mem) (S : List Nat) (x : Row) (yx : ℚ) (data : Nat → Row) (y : Nat → ℚ) (minSize maxDepth N : Nat)
    (classifier : Bool) (t : ℚ × ℚ) :
    sdpRf (mems.map (Mem.renum π)) (S.map π) (renumRow π x) yx (fun i => renumRow π (data i)) y minSize maxDepth N classifier t =
      sdpRf mems S x yx data y minSize maxDepth N classifier t ∧
    ddpRf (mems.map (Mem.renum π)) (S.map π) (renumRow π x) yx (fun i => renumRow π (data i)) y minSize maxDepth N classifier t =
      ddpRf mems S x yx data y minSize maxDepth N classifier t ∧
    expRf (mems.map (Mem.renum π)) (S.map π) (renumRow π x) (fun i => renumRow π (data i)) y minSize maxDepth N =
      expRf mems S x data y minSize maxDepth N ∧
    (∀ q : ℚ, cdfRf (mems.map (Mem.renum π)) (S.map π) (renumRow π x) (fun i => renumRow π (data i)) y minSize maxDepth N q =
      cdfRf mems S x data y minSize maxDepth N q) ∧
    ruleWeights (mems.map (Mem.renum π)) (S.map π) (renumRow π x) (fun i => renumRow π (data i)) minSize maxDepth N =
      ruleWeights mems S x data minSize maxDepth N ∧
    ∀ j, (sdpRule (mems.map (Mem.renum π)) (S.map π) (renumRow π x) yx (fun i => renumRow π (data i)) y minSize maxDepth N classifier t).2 (π j) =
      (sdpRule mems S x yx data y minSize maxDepth N classifier t).2 j := by
  have h : ∀ push, forestRun push (S.map π) (renumRow π x) (fun i => renumRow π (data i)) minSize maxDepth N (mems.map (Mem.renum π)) Rule.init =
      ((forestRun push S x data minSize maxDepth N mems Rule.init).1, renumRule π (forestRun push S x data minSize maxDepth N mems Rule.init).2) := by
    intro push
    rw [← forestRunD_dirS, ← forestRunD_dirS]
    exact forestRunD_renum (dirS_renum S x) push data minSize maxDepth N mems Rule.init
  have hs : cellsSet (mems.map (Mem.renum π)) (S.map π) (renumRow π x) (fun i => renumRow π (data i)) minSize maxDepth N =
      cellsSet mems S x data minSize maxDepth N := by
    have := congrArg Prod.fst (h setInsert)
    exact this
  have hv : cellsVec (mems.map (Mem.renum π)) (S.map π) (renumRow π x) (fun i => renumRow π (data i)) minSize maxDepth N =
      cellsVec mems S x data minSize maxDepth N := by
    have := congrArg Prod.fst (h pushBack)
    exact this
  refine ⟨?_, ?_, ?_, fun q => ?_, ?_, fun j => ?_⟩
  · simp only [sdpRf, hs]
  · simp only [ddpRf, hs]
  · simp only [expRf, hs]
  · simp only [cdfRf, hv]
  · funext i; simp only [ruleWeights, hs]
  · have := congrFun (congrArg Prod.snd (h setInsert)) (π j)
    simp only [renumRule, π.symm_apply_apply] at this
    exact this

/-- **C117, counterfactual, conditional and interventional probabilities**, with the weights of the rows. -/
theorem C117_cdp (mems : List Mem) (S : List Nat) (x : Row) (cond : Rule) (yx down up : ℚ) (data : Nat → Row) (y : Nat → ℚ)
    (minSize maxDepth N : Nat) (classifier : Bool) (t : ℚ × ℚ) :
    cdpWeights (mems.map (Mem.renum π)) (S.map π) (renumRow π x) yx down up (fun i => renumRow π (data i)) y minSize maxDepth N classifier =
      cdpWeights mems S x yx down up data y minSize maxDepth N classifier ∧
    cdpCond (mems.map (Mem.renum π)) (S.map π) (renumRow π x) (renumRule π cond) yx down up (fun i => renumRow π (data i)) y minSize maxDepth N
      classifier = cdpCond mems S x cond yx down up data y minSize maxDepth N classifier ∧
    ddpCond (mems.map (Mem.renum π)) (S.map π) (renumRow π x) (renumRule π cond) yx t (fun i => renumRow π (data i)) y minSize maxDepth N
      classifier = ddpCond mems S x cond yx t data y minSize maxDepth N classifier ∧
    cdpIntv (mems.map (Mem.renum π)) (S.map π) (renumRule π cond) yx t (fun i => renumRow π (data i)) y minSize maxDepth N classifier =
      cdpIntv mems S cond yx t data y minSize maxDepth N classifier ∧
    ddpIntv (mems.map (Mem.renum π)) (S.map π) (renumRule π cond) yx t (fun i => renumRow π (data i)) y minSize maxDepth N classifier =
      ddpIntv mems S cond yx t data y minSize maxDepth N classifier := by
  have h : ∀ {dir dir'}, RenumDir π dir dir' → cellsD (mems.map (Mem.renum π)) dir' (fun i => renumRow π (data i)) minSize maxDepth N =
      cellsD mems dir data minSize maxDepth N := by
    intro dir dir' hd
    have := congrArg Prod.fst (forestRunD_renum hd setInsert data minSize maxDepth N mems Rule.init)
    exact this
  refine ⟨?_, ?_, ?_, ?_, ?_⟩
  · simp only [cdpWeights, h (dirS_renum S x)]
  · simp only [cdpCond, h (dirCond_renum S x cond)]
  · simp only [ddpCond, h (dirCond_renum S x cond)]
  · simp only [cdpIntv, h (dirIntv_renum S cond)]
  · simp only [ddpIntv, h (dirIntv_renum S cond)]

/-! ## Examples: columns 0 and 2 of three exchanged -/

theorem exSwap_range : ∀ j, (Equiv.swap 0 2 : Equiv.Perm Nat) j < 3 ↔ j < 3 := by
  intro j
  rcases j with _ | _ | _ | j
  · simp
  · decide
  · simp
  · rw [Equiv.swap_apply_of_ne_of_ne (by omega) (by omega)]

example : WellFormed exTree 3 ∧ ValidGroups 3 [[2, 1]] ∧ shapCy [exTree] 3 exData [[2, 1]] (fun _ => 2) 2 0 = -65 / 12 ∧
    shapCy [exTree.renum (Equiv.swap 0 2)] 3 (exData.map (renumRow (Equiv.swap 0 2))) [[0, 1]] (renumRow (Equiv.swap 0 2) fun _ => 2) 0 0 =
      -65 / 12 := by
  refine ⟨exTree_wf3, Or.inr ⟨by simp, by simp, by simp⟩, ?_, ?_⟩ <;> decide +kernel

example : ∃ lab' : Row → Nat, ∀ z, lab' (renumRow (Equiv.swap 0 2) z) = if z 0 ≤ 1 then 0 else 1 :=
  ⟨fun z => if z 2 ≤ 1 then 0 else 1, fun z => by simp [renumRow]⟩

example : (List.range 3).map (sdpRule [(Mem.ofTree ladderTree leafJunk).renum (Equiv.swap 0 2)] [2, 1] (renumRow (Equiv.swap 0 2) (diag 2)) 1
      (fun i => renumRow (Equiv.swap 0 2) (diag i)) (fun i => if i < 3 then 1 else 0) 1 3 10 true (0, 0)).2 =
    [(-10000000000, 10000000000), (-10000000000, 3), (1, 10000000000)] ∧
    (List.range 3).map (sdpRule [Mem.ofTree ladderTree leafJunk] [0, 1] (diag 2) 1
      diag (fun i => if i < 3 then 1 else 0) 1 3 10 true (0, 0)).2 =
    [(1, 10000000000), (-10000000000, 3), (-10000000000, 10000000000)] := by
  refine ⟨by decide +kernel, by decide +kernel⟩

end Acv
