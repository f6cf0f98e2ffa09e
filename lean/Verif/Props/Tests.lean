import Verif.Lemmas.Tests
import Verif.Props.UnusedForest
import Verif.Model.LeafShapPy

/-!
# C121: explanations see the answers to the tests of the model and nothing else
-/

namespace Acv

/-- **C121, prediction**: rows that answer every test in the same way have the same prediction. -/
theorem C121_predict {ts : List TreeArr} {m : Nat} (hw : ∀ t ∈ ts, WellFormed t m) {x x' : Row} (hx : SameAnswers ts x x')
    (dfltLimit arg : Option Int) (base : Nat → ℚ) (k : Nat) :
    ensemblePredict ts dfltLimit arg base (full x') k = ensemblePredict ts dfltLimit arg base (full x) k := by
  have hwalk : ∀ (off fuel n : Nat), (pack ts).walk (full x') off fuel n = (pack ts).walk (full x) off fuel n := by
    intro off fuel
    induction fuel with
    | zero => intro n; rfl
    | succ fuel ih =>
      intro n
      unfold Packed.walk
      by_cases hl : (pack ts).left (off + n) < 0
      · simp [hl]
      · have hu : IsTest ts ((pack ts).feature (off + n)).toNat ((pack ts).threshold (off + n)) := by
          simp only [pack] at hl ⊢
          rcases lt_or_ge ((off + n) / maxNodes ts) ts.length with h | h
          · simp only [List.getD_eq_getElem?_getD, List.getElem?_eq_getElem h, Option.getD_some] at hl ⊢
            by_cases hsz : (off + n) % maxNodes ts < ts[(off + n) / maxNodes ts].size
            · rw [if_pos hsz] at hl ⊢
              have hmem := List.getElem_mem h
              obtain ⟨b, hb⟩ := hw _ hmem
              have hpos := feature_nonneg hb.enc _ ((hb.all _).2 hsz) (not_lt.1 hl)
              exact ⟨_, hmem, _, hsz, not_lt.1 hl, by omega, by simp [hsz]⟩
            · rw [if_neg hsz] at hl
              exact absurd (by norm_num) hl
          · exfalso
            apply hl
            simp only [List.getD_eq_getElem?_getD, List.getElem?_eq_none h, Option.getD_none]
            rw [if_neg (by simp [TreeArr.empty])]
            norm_num
        simp only [full, hx _ _ hu, ih]
  unfold ensemblePredict Packed.predict
  simp only [hwalk]

/-- **C121, Shapley values and Active Shapley values**: rows that answer every test in the same way are interchangeable, in the background and as the
observation. -/
theorem C121_shapley {m : Nat} {ts : List TreeArr} (hw : ∀ t ∈ ts, WellFormed t m) {d d' : List Row} (hd : List.Forall₂ (SameAnswers ts) d d')
    {x x' : Row} (hx : SameAnswers ts x x') (C : List (List Nat)) (S N : List Nat) (j k : Nat) :
    shapCy ts m d' C x' j k = shapCy ts m d C x j k ∧
    shapNorm ts m d' C x' j k = shapNorm ts m d C x j k ∧
    activeCy ts m d' C S N x' j k = activeCy ts m d C S N x j k := by
  have hr : ∀ t ∈ ts, ∀ ℓ ∈ t.leafIdx, RectTests ts (t.leafRect ℓ) := fun t ht ℓ _ => leafRect_tests hw ht ℓ
  have hlen : d'.length = d.length := hd.length_eq.symm
  have hc : ∀ r : Rect, RectTests ts r → ∀ T, cnt d' r T = cnt d r T := fun r h T => cnt_same h hd T
  have hs : ∀ r : Rect, RectTests ts r → ∀ T, sat r T x' = sat r T x := fun r h T => sat_same h hx T
  have hc2 : ∀ r : Rect, RectTests ts r → ∀ T V : List Nat,
      (d'.filter fun z => sat r T z && sat r V z).length = (d.filter fun z => sat r T z && sat r V z).length := fun r h T V =>
    forall₂_count (fun _ _ hz => by rw [sat_same h hz T, sat_same h hz V]) hd
  refine ⟨?_, ?_, ?_⟩
  · unfold shapCy
    congr 2
    refine List.map_congr_left fun t ht => ?_
    congr 1
    refine List.map_congr_left fun ℓ hℓ => ?_
    simp only [cyLeafPhi, cyTerm, hlen, hc _ (hr t ht ℓ hℓ), hs _ (hr t ht ℓ hℓ), hc2 _ (hr t ht ℓ hℓ)]
  · unfold shapNorm
    congr 2
    refine List.map_congr_left fun t ht => ?_
    congr 1
    refine List.map_congr_left fun ℓ hℓ => ?_
    congr 1
    have hall : ∀ (va : List Nat) (rest : List (List Nat)) (c : Nat), normTerm m d' (t.leafIdx.map t.leafRect) (t.leafRect ℓ) x' va rest c =
        normTerm m d (t.leafIdx.map t.leafRect) (t.leafRect ℓ) x va rest c := by
      intro va rest c
      have h1 : ∀ T : List Nat, ((t.leafIdx.map t.leafRect).map fun q : Rect => ((if sat q T x' then 1 else 0 : ℚ),
          (cnt d' q (List.range m) : ℚ), (cnt d' q T : ℚ))) = (t.leafIdx.map t.leafRect).map fun q : Rect => ((if sat q T x then 1 else 0 : ℚ),
          (cnt d q (List.range m) : ℚ), (cnt d q T : ℚ)) := by
        intro T
        refine List.map_congr_left fun q hq => ?_
        obtain ⟨ℓ', hℓ', rfl⟩ := List.mem_map.1 hq
        simp only [hc _ (hr t ht ℓ' hℓ'), hs _ (hr t ht ℓ' hℓ')]
      have h2 : ∀ T V : List Nat, ((t.leafIdx.map t.leafRect).map fun q : Rect => ((if sat q T x' && sat q V x' then 1 else 0 : ℚ),
          (cnt d' q (List.range m) : ℚ), ((d'.filter fun z => sat q T z && sat q V z).length : ℚ))) =
          (t.leafIdx.map t.leafRect).map fun q : Rect => ((if sat q T x && sat q V x then 1 else 0 : ℚ),
          (cnt d q (List.range m) : ℚ), ((d.filter fun z => sat q T z && sat q V z).length : ℚ)) := by
        intro T V
        refine List.map_congr_left fun q hq => ?_
        obtain ⟨ℓ', hℓ', rfl⟩ := List.mem_map.1 hq
        simp only [hc _ (hr t ht ℓ' hℓ'), hs _ (hr t ht ℓ' hℓ'), hc2 _ (hr t ht ℓ' hℓ')]
      simp only [normTerm, h1, h2, hlen, hc _ (hr t ht ℓ hℓ), hs _ (hr t ht ℓ hℓ), hc2 _ (hr t ht ℓ hℓ)]
    simp only [normLeafPhi, hall]
  · unfold activeCy
    congr 3
    refine List.flatMap_congr fun t ht => ?_
    refine List.flatMap_congr fun ℓ hℓ => ?_
    simp only [activeLeafWrites, activeTerm, activeOffTerm, hlen, hc _ (hr t ht ℓ hℓ), hs _ (hr t ht ℓ hℓ), hc2 _ (hr t ht ℓ hℓ)]

theorem mapM_same {α β : Type} {f g : α → Except Unit β} : ∀ (l : List α), (∀ a ∈ l, f a = g a) → l.mapM f = l.mapM g
  | [], _ => rfl
  | a :: l, h => by rw [List.mapM_cons, List.mapM_cons, h a (by simp), mapM_same l fun b hb => h b (by simp [hb])]

/-- **C121, `py_shap_values`**. -/
theorem C121_shapley_py {m : Nat} {ts : List TreeArr} (hw : ∀ t ∈ ts, WellFormed t m) {d d' : List Row} (hd : List.Forall₂ (SameAnswers ts) d d')
    {x x' : Row} (hx : SameAnswers ts x x') (C : List (List Nat)) (j k : Nat) : shapPy ts m d' C x' j k = shapPy ts m d C x j k := by
  have hlen : d'.length = d.length := hd.length_eq.symm
  have hc : ∀ r : Rect, RectTests ts r → ∀ T, cnt d' r T = cnt d r T := fun r h T => cnt_same h hd T
  have hs : ∀ r : Rect, RectTests ts r → ∀ T, sat r T x' = sat r T x := fun r h T => sat_same h hx T
  have e : ∀ t ∈ ts, shapTreePy t m d' C x' j k = shapTreePy t m d C x j k := by
    intro t ht
    have ht2 : ∀ ℓ m' k' s S i v, pyTerm m m' k' s d' (t.leafRect ℓ) x' S i v = pyTerm m m' k' s d (t.leafRect ℓ) x S i v := by
      intro ℓ m' k' s S i v
      simp only [pyTerm, hlen, hc _ (leafRect_tests hw ht ℓ), hs _ (leafRect_tests hw ht ℓ)]
    simp only [shapTreePy, pyLeafWrites, ht2]
  unfold shapPy
  rw [mapM_same ts e]

/-- **C121, conditional expectations**: the same for rows that moreover lie on the same thresholds. -/
theorem C121_exp {m : Nat} {ts : List TreeArr} (hw : ∀ t ∈ ts, WellFormed t m) {d d' : List Row} (hd : List.Forall₂ (SameOrder ts) d d')
    {x x' : Row} (hx : SameOrder ts x x') (S : List Nat) (k : Nat) :
    expCy ts m d' S x' k = expCy ts m d S x k ∧ expPy ts m d' S x' k = expPy ts m d S x k ∧
    expNormCy ts m d' S x' k = expNormCy ts m d S x k := by
  have hr : ∀ t ∈ ts, ∀ ℓ ∈ t.leafIdx, RectTests ts (t.leafRect ℓ) := fun t ht ℓ _ => leafRect_tests hw ht ℓ
  refine ⟨?_, ?_, ?_⟩
  · refine sumLeaves_congr' fun t ht ℓ hℓ => ?_
    simp only [satCC_same (hr t ht ℓ hℓ) hx S, cntCC_same (hr t ht ℓ hℓ) hd _, cnt_same (hr t ht ℓ hℓ) (hd.imp fun _ _ h => h.1) S]
  · unfold expPy
    congr 2
    refine sumLeaves_congr' fun t ht ℓ hℓ => ?_
    simp only [satCC_same (hr t ht ℓ hℓ) hx S, cntCC_same (hr t ht ℓ hℓ) hd _, cntCC_same (hr t ht ℓ hℓ) hd S]
  · unfold expNormCy
    congr 1
    refine List.map_congr_left fun t ht => ?_
    unfold expNormTree
    have h1 : (t.leafIdx.filter fun ℓ => satCC (t.leafRect ℓ) S x') = t.leafIdx.filter fun ℓ => satCC (t.leafRect ℓ) S x :=
      List.filter_congr fun ℓ hℓ => satCC_same (hr t ht ℓ hℓ) hx S
    simp only [h1]
    have hm : ∀ ℓ ∈ t.leafIdx.filter (fun ℓ => satCC (t.leafRect ℓ) S x), cntCC d' (t.leafRect ℓ) (List.range m) = cntCC d (t.leafRect ℓ) (List.range m) ∧
        cnt d' (t.leafRect ℓ) S = cnt d (t.leafRect ℓ) S := fun ℓ hℓ =>
      ⟨cntCC_same (hr t ht ℓ (List.mem_filter.1 hℓ).1) hd _, cnt_same (hr t ht ℓ (List.mem_filter.1 hℓ).1) (hd.imp fun _ _ h => h.1) S⟩
    generalize t.leafIdx.filter (fun ℓ => satCC (t.leafRect ℓ) S x) = fits at hm
    have e1 : (fits.any fun ℓ => decide (cnt d' (t.leafRect ℓ) S = 0 ∧ cntCC d' (t.leafRect ℓ) (List.range m) = 0)) =
        fits.any fun ℓ => decide (cnt d (t.leafRect ℓ) S = 0 ∧ cntCC d (t.leafRect ℓ) (List.range m) = 0) := by
      rw [Bool.eq_iff_iff, List.any_eq_true, List.any_eq_true]
      exact exists_congr fun ℓ => and_congr_right fun hℓ => by rw [(hm ℓ hℓ).1, (hm ℓ hℓ).2]
    have e2 : (fits.any fun ℓ => decide (cnt d' (t.leafRect ℓ) S = 0)) = fits.any fun ℓ => decide (cnt d (t.leafRect ℓ) S = 0) := by
      rw [Bool.eq_iff_iff, List.any_eq_true, List.any_eq_true]
      exact exists_congr fun ℓ => and_congr_right fun hℓ => by rw [(hm ℓ hℓ).2]
    have e3 : (fits.map fun ℓ => (cntCC d' (t.leafRect ℓ) (List.range m) : ℚ) / cnt d' (t.leafRect ℓ) S) =
        fits.map fun ℓ => (cntCC d (t.leafRect ℓ) (List.range m) : ℚ) / cnt d (t.leafRect ℓ) S :=
      List.map_congr_left fun ℓ hℓ => by rw [(hm ℓ hℓ).1, (hm ℓ hℓ).2]
    rw [e1, e2, e3]
    split
    · rfl
    · split
      · rfl
      · congr 2
        exact List.map_congr_left fun ℓ hℓ => by rw [(hm ℓ hℓ).1, (hm ℓ hℓ).2]

/-- **C121, same decision probabilities**: the same, if the class or the output of the model is the same for rows that answer the tests in the same way,
as `C121_predict` says. -/
theorem C121_sdp {m : Nat} {ts : List TreeArr} (hw : ∀ t ∈ ts, WellFormed t m) {d d' : List Row} (hd : List.Forall₂ (SameOrder ts) d d')
    {x x' : Row} (hx : SameOrder ts x x') (S : List Nat) {lab : Row → Nat} (hlab : ∀ z z', SameAnswers ts z z' → lab z' = lab z)
    {y : Row → ℚ} (hy : ∀ z z', SameAnswers ts z z' → y z' = y z) (tX : ℚ) :
    sdpClfPy ts m lab d' S x' = sdpClfPy ts m lab d S x ∧ sdpClfCy ts m lab d' S x' = sdpClfCy ts m lab d S x ∧
    sdpRegPy ts m y tX d' S x' = sdpRegPy ts m y tX d S x := by
  have hr : ∀ t ∈ ts, ∀ ℓ ∈ t.leafIdx, RectTests ts (t.leafRect ℓ) := fun t ht ℓ _ => leafRect_tests hw ht ℓ
  replace hlab : ∀ z z', SameOrder ts z z' → lab z' = lab z := fun z z' h => hlab z z' h.1
  replace hy : ∀ z z', SameOrder ts z z' → y z' = y z := fun z z' h => hy z z' h.1
  have hlx := hlab _ _ hx
  have hyx := hy _ _ hx
  have hs : ∀ t ∈ ts, ∀ ℓ ∈ t.leafIdx, satCC (t.leafRect ℓ) S x' = satCC (t.leafRect ℓ) S x := fun t ht ℓ hℓ => satCC_same (hr t ht ℓ hℓ) hx S
  refine ⟨?_, ?_, ?_⟩
  · unfold sdpClfPy
    have hmean : ∀ rows rows', List.Forall₂ (SameOrder ts) rows rows' → (sumLeaves ts (lab x') fun r v =>
        if satCC r S x' then guardDiv (cntCC rows' r (List.range m) * v) (cntCC rows' r S) else 0) = sumLeaves ts (lab x) fun r v =>
        if satCC r S x then guardDiv (cntCC rows r (List.range m) * v) (cntCC rows r S) else 0 := by
      intro rows rows' h
      rw [hlx]
      refine sumLeaves_congr' fun t ht ℓ hℓ => ?_
      simp only [hs t ht ℓ hℓ, cntCC_same (hr t ht ℓ hℓ) h _]
    have hup := forall₂_filter (p := fun z => decide (lab z = lab x)) (p' := fun z => decide (lab z = lab x'))
      (fun z z' h => by rw [hlab z z' h, hlx]) hd
    have hdn := forall₂_filter (p := fun z => decide (lab z ≠ lab x)) (p' := fun z => decide (lab z ≠ lab x'))
      (fun z z' h => by rw [hlab z z' h, hlx]) hd
    have e1 := hmean _ _ hd
    have e2 := hmean _ _ hup
    have e3 := hmean _ _ hdn
    dsimp only
    rw [e1, e2, e3]
  · unfold sdpClfCy
    have hmean : ∀ rows rows', List.Forall₂ (SameOrder ts) rows rows' → (ts.map fun t => (t.leafIdx.map fun ℓ => guardDiv
        (if satCC (t.leafRect ℓ) S x' then
          guardDiv (cntCC rows' (t.leafRect ℓ) (List.range m) * t.value ℓ (lab x')) (cntCC rows' (t.leafRect ℓ) S) else 0)
        ((t.leafIdx.map fun ℓ => if satCC (t.leafRect ℓ) S x' then
          guardDiv (cntCC rows' (t.leafRect ℓ) (List.range m)) (cntCC rows' (t.leafRect ℓ) S) else 0).sum)).sum).sum =
        (ts.map fun t => (t.leafIdx.map fun ℓ => guardDiv
        (if satCC (t.leafRect ℓ) S x then
          guardDiv (cntCC rows (t.leafRect ℓ) (List.range m) * t.value ℓ (lab x)) (cntCC rows (t.leafRect ℓ) S) else 0)
        ((t.leafIdx.map fun ℓ => if satCC (t.leafRect ℓ) S x then
          guardDiv (cntCC rows (t.leafRect ℓ) (List.range m)) (cntCC rows (t.leafRect ℓ) S) else 0).sum)).sum).sum := by
      intro rows rows' h
      rw [hlx]
      congr 1
      refine List.map_congr_left fun t ht => ?_
      have e : (t.leafIdx.map fun ℓ => if satCC (t.leafRect ℓ) S x' then
          guardDiv (cntCC rows' (t.leafRect ℓ) (List.range m)) (cntCC rows' (t.leafRect ℓ) S) else 0) =
          t.leafIdx.map fun ℓ => if satCC (t.leafRect ℓ) S x then
          guardDiv (cntCC rows (t.leafRect ℓ) (List.range m)) (cntCC rows (t.leafRect ℓ) S) else 0 :=
        List.map_congr_left fun ℓ hℓ => by
          simp only [hs t ht ℓ hℓ, cntCC_same (hr t ht ℓ hℓ) h _]
      rw [e]
      congr 1
      refine List.map_congr_left fun ℓ hℓ => ?_
      simp only [hs t ht ℓ hℓ, cntCC_same (hr t ht ℓ hℓ) h _]
    have hup := forall₂_filter (p := fun z => decide (lab x = lab z)) (p' := fun z => decide (lab x' = lab z))
      (fun z z' h => by rw [hlab z z' h, hlx]) hd
    have hdn := forall₂_filter (p := fun z => decide (¬ lab x = lab z)) (p' := fun z => decide (¬ lab x' = lab z))
      (fun z z' h => by rw [hlab z z' h, hlx]) hd
    have e1 := hmean _ _ hd
    have e2 := hmean _ _ hup
    have e3 := hmean _ _ hdn
    dsimp only
    rw [e1, e2, e3]
  · unfold sdpRegPy
    have hmean : ∀ rows rows', List.Forall₂ (SameOrder ts) rows rows' → regLeafMean ts m S x' (y x') rows' = regLeafMean ts m S x (y x) rows := by
      intro rows rows' h
      rw [hyx]
      refine sumTreePairs_congr (fun t ht => ?_) fun t ht t' ht' => ?_
      · congr 1
        refine List.map_congr_left fun ℓ hℓ => ?_
        simp only [hs t ht ℓ hℓ, cntCC_same (hr t ht ℓ hℓ) h _]
      · congr 1
        refine List.map_congr_left fun ℓ hℓ => ?_
        congr 1
        refine List.map_congr_left fun ℓ' hℓ' => ?_
        simp only [hs t ht ℓ hℓ, hs t' ht' ℓ' hℓ', cntCC2_same (hr t ht ℓ hℓ) (hr t' ht' ℓ' hℓ') h _]
    have hup := forall₂_filter (p := fun z => farOut tX (y x) (y z)) (p' := fun z => farOut tX (y x') (y z))
      (fun z z' h => by rw [hy z z' h, hyx]) hd
    have hdn := forall₂_filter (p := fun z => !farOut tX (y x) (y z)) (p' := fun z => !farOut tX (y x') (y z))
      (fun z z' h => by rw [hy z z' h, hyx]) hd
    have e1 := hmean _ _ hd
    have e2 := hmean _ _ hup
    have e3 := hmean _ _ hdn
    dsimp only
    rw [e1, e2, e3]


/-! ## The projected forest -/

theorem forest_same {m : Nat} {ts : List TreeArr} {mems : List Mem} (hf : List.Forall₂ (TreeStored m) ts mems)
    {dir dir' : Int → ℚ → Option Bool} (hdir : ∀ f thr, (f < 0 → dir f thr = none ∧ dir' f thr = none) ∧
      (0 ≤ f → IsTest ts f.toNat thr → dir' f thr = dir f thr)) {data data' : Nat → Row} (hd : ∀ i, SameAnswers ts (data i) (data' i))
    {push : List Int → Int → List Int} (hpush : ∀ l a c, c ∈ push l a ↔ c = a ∨ c ∈ l) (minSize maxDepth N : Nat) (r : Rule) :
    forestRunD push dir' data' minSize maxDepth N mems r = forestRunD push dir data minSize maxDepth N mems r := by
  refine forestRunD_tests hpush minSize maxDepth N mems r fun mem hmem => ?_
  obtain ⟨i, hi, rfl⟩ := List.getElem_of_mem hmem
  have hi' : i < ts.length := by rw [hf.length_eq]; exact hi
  have hst : TreeStored m ts[i] mems[i] := (List.forall₂_iff_get.1 hf).2 i hi' hi
  refine ⟨treeNodes ts[i], closed_stored hst, fun n hn => ?_⟩
  have h0 := hdir (mems[i].feat n) (mems[i].thr n)
  rcases lt_or_ge (mems[i].feat n) 0 with h | h
  · rw [(h0.1 h).1, (h0.1 h).2]
    exact ⟨rfl, fun h => absurd rfl h⟩
  · have hu := test_stored (List.getElem_mem hi') hst hn h
    exact ⟨h0.2 h hu, fun _ i => hd i _ _ hu⟩

theorem dirS_tests {ts : List TreeArr} (S : List Nat) {x x' : Row} (hx : SameAnswers ts x x') (f : Int) (thr : ℚ) :
    (f < 0 → dirS S x f thr = none ∧ dirS S x' f thr = none) ∧ (0 ≤ f → IsTest ts f.toNat thr → dirS S x' f thr = dirS S x f thr) := by
  refine ⟨fun h => ?_, fun _ hu => ?_⟩
  · simp [dirS, inS_neg _ h]
  · simp only [dirS, dirPoint, hx _ _ hu]

theorem dirCond_tests {ts : List TreeArr} (S : List Nat) {x x' : Row} (hx : SameAnswers ts x x') (cond : Rule) (f : Int) (thr : ℚ) :
    (f < 0 → dirCond S x cond f thr = none ∧ dirCond S x' cond f thr = none) ∧
      (0 ≤ f → IsTest ts f.toNat thr → dirCond S x' cond f thr = dirCond S x cond f thr) := by
  refine ⟨fun h => ?_, fun _ hu => ?_⟩
  · simp [dirCond, inS_neg _ h, dirBox_neg _ h]
  · simp only [dirCond, dirPoint, hx _ _ hu]

theorem dirIntv_tests {ts : List TreeArr} (S : List Nat) (cond : Rule) (f : Int) (thr : ℚ) :
    (f < 0 → dirIntv S cond f thr = none ∧ dirIntv S cond f thr = none) ∧
      (0 ≤ f → IsTest ts f.toNat thr → dirIntv S cond f thr = dirIntv S cond f thr) :=
  ⟨fun h => by simp [dirIntv, inS_neg _ h, dirBox_neg _ h], fun _ _ => rfl⟩

/-- **C121, projected forest**: every probability, rule, weight and expectation is the same for rows that answer the tests in the same way. -/
theorem C121_forest {m : Nat} {ts : List TreeArr} {mems : List Mem} (hf : List.Forall₂ (TreeStored m) ts mems)
    (S : List Nat) {x x' : Row} (hx : SameAnswers ts x x') {data data' : Nat → Row}
    (hd : ∀ i, SameAnswers ts (data i) (data' i)) (yx down up : ℚ) (y : Nat → ℚ) (minSize maxDepth N : Nat) (classifier : Bool) (t : ℚ × ℚ) (q : ℚ) :
    sdpRf mems S x' yx data' y minSize maxDepth N classifier t = sdpRf mems S x yx data y minSize maxDepth N classifier t ∧
    ddpRf mems S x' yx data' y minSize maxDepth N classifier t = ddpRf mems S x yx data y minSize maxDepth N classifier t ∧
    sdpRule mems S x' yx data' y minSize maxDepth N classifier t = sdpRule mems S x yx data y minSize maxDepth N classifier t ∧
    ddpRule mems S x' yx data' y minSize maxDepth N classifier t = ddpRule mems S x yx data y minSize maxDepth N classifier t ∧
    ruleWeights mems S x' data' minSize maxDepth N = ruleWeights mems S x data minSize maxDepth N ∧
    ddpWeights mems S x' yx data' y minSize maxDepth N classifier t = ddpWeights mems S x yx data y minSize maxDepth N classifier t ∧
    expRf mems S x' data' y minSize maxDepth N = expRf mems S x data y minSize maxDepth N ∧
    cdfRf mems S x' data' y minSize maxDepth N q = cdfRf mems S x data y minSize maxDepth N q ∧
    cdpRf mems S x' yx down up data' y minSize maxDepth N classifier = cdpRf mems S x yx down up data y minSize maxDepth N classifier ∧
    cdpRule mems S x' yx down up data' y minSize maxDepth N classifier = cdpRule mems S x yx down up data y minSize maxDepth N classifier ∧
    cdpWeights mems S x' yx down up data' y minSize maxDepth N classifier =
      cdpWeights mems S x yx down up data y minSize maxDepth N classifier := by
  have hs : ∀ {push : List Int → Int → List Int}, (∀ l a c, c ∈ push l a ↔ c = a ∨ c ∈ l) → ∀ r,
      forestRun push S x' data' minSize maxDepth N mems r = forestRun push S x data minSize maxDepth N mems r := by
    intro push hpush r
    rw [← forestRunD_dirS, ← forestRunD_dirS]
    exact forest_same hf (dirS_tests S hx) hd hpush minSize maxDepth N r
  have hD := forest_same hf (dirS_tests S hx) hd mem_setInsert minSize maxDepth N Rule.init
  have hw : ruleWeights mems S x' data' minSize maxDepth N = ruleWeights mems S x data minSize maxDepth N := by
    funext i
    simp only [ruleWeights, cellsSet, hs mem_setInsert]
  simp only [sdpRf, ddpRf, sdpRule, ddpRule, hw, ddpWeights, expRf, cdfRf, cdpRf, cdpRule, cdpWeights, cellsSet, cellsVec, cellsD,
    hs mem_setInsert, hs mem_pushBack, hD, and_self]

/-- **C121, explanations under a rule**. -/
theorem C121_cond {m : Nat} {ts : List TreeArr} {mems : List Mem} (hf : List.Forall₂ (TreeStored m) ts mems)
    (S : List Nat) {x x' : Row} (hx : SameAnswers ts x x') {data data' : Nat → Row}
    (hd : ∀ i, SameAnswers ts (data i) (data' i)) (cond : Rule) (yx down up : ℚ) (y : Nat → ℚ) (minSize maxDepth N : Nat) (classifier : Bool) (t : ℚ × ℚ) :
    cdpCond mems S x' cond yx down up data' y minSize maxDepth N classifier = cdpCond mems S x cond yx down up data y minSize maxDepth N classifier ∧
    ddpCond mems S x' cond yx t data' y minSize maxDepth N classifier = ddpCond mems S x cond yx t data y minSize maxDepth N classifier ∧
    cdpIntv mems S cond yx t data' y minSize maxDepth N classifier = cdpIntv mems S cond yx t data y minSize maxDepth N classifier ∧
    ddpIntv mems S cond yx t data' y minSize maxDepth N classifier = ddpIntv mems S cond yx t data y minSize maxDepth N classifier := by
  have hC := forest_same hf (dirCond_tests S hx cond) hd mem_setInsert minSize maxDepth N Rule.init
  have hI := forest_same hf (dirIntv_tests S cond) hd mem_setInsert minSize maxDepth N Rule.init
  simp only [cdpCond, ddpCond, cdpIntv, ddpIntv, cellsD, hC, hI, and_self]

/-! ## Searches -/

/-- **C121, searches**: every observation gets the sets of the observation that answers the tests in the same way. -/
theorem C121_search {m : Nat} {ts : List TreeArr} {mems : List Mem} (hf : List.Forall₂ (TreeStored m) ts mems)
    {X X' : Nat → Row} (hX : ∀ i, SameAnswers ts (X i) (X' i)) {data data' : Nat → Row} (hd : ∀ i, SameAnswers ts (data i) (data' i))
    (yX : Nat → ℚ) (y : Nat → ℚ) (minSize maxDepth nData : Nat) (classifier : Bool) (t : ℚ × ℚ)
    (N cols : Nat) (order : List Nat) (C : List (List Nat)) (pi : ℚ) (minimal : Nat) (stop : Bool) (half : Nat) :
    importanceSdpRf (fun i S => sdpRf mems S (X' i) (yX i) data' y minSize maxDepth nData classifier t) N cols order C pi minimal stop half =
      importanceSdpRf (fun i S => sdpRf mems S (X i) (yX i) data y minSize maxDepth nData classifier t) N cols order C pi minimal stop half ∧
    ∀ i, sufficientExpl (fun S => sdpRf mems S (X' i) (yX i) data' y minSize maxDepth nData classifier t) cols order C pi minimal =
      sufficientExpl (fun S => sdpRf mems S (X i) (yX i) data y minSize maxDepth nData classifier t) cols order C pi minimal := by
  have h : ∀ i S, sdpRf mems S (X' i) (yX i) data' y minSize maxDepth nData classifier t =
      sdpRf mems S (X i) (yX i) data y minSize maxDepth nData classifier t :=
    fun i S => (C121_forest hf S (hX i) hd (yX i) 0 0 y minSize maxDepth nData classifier t 0).1
  simp only [h, implies_true, and_self]

/-! ## What does see more -/

theorem splitOn_test {f g : Nat} {thr v : ℚ} : IsTest [splitOn f thr] g v ↔ g = f ∧ v = thr := by
  constructor
  · rintro ⟨t, ht, n, hn, hl, hf, hv⟩
    rw [List.mem_singleton] at ht
    subst ht
    simp only [splitOn] at hn hl hf hv
    rcases n with _ | _ | _ | n
    · exact ⟨by simpa using hf.symm, by simpa using hv.symm⟩
    · simp at hl
    · simp at hl
    · omega
  · rintro ⟨rfl, rfl⟩
    exact ⟨_, List.mem_singleton_self _, 0, by simp [splitOn], by simp [splitOn], by simp [splitOn], by simp [splitOn]⟩

/-- The claim of C121 for an estimator, without the restriction to rows on the same thresholds. -/
def C121_claim (f : List TreeArr → List Row → Row → ℚ) : Prop := ∀ (ts : List TreeArr), (∀ t ∈ ts, WellFormed t 2) →
  ∀ (d d' : List Row), List.Forall₂ (SameAnswers ts) d d' → ∀ x x', SameAnswers ts x x' → f ts d' x' = f ts d x

/-- **C121 is false** of `compute_exp`, which counts a row on a threshold on both sides, and of `compute_exp_cat`, which looks for equal entries. -/
theorem C121_false : ¬ C121_claim (fun ts d x => expCy ts 2 d [0] x 0) ∧ ¬ C121_claim (fun ts d x => (expPy ts 2 d [0] x 0).toOption.getD 0) ∧
    ¬ C121_claim (fun ts d x => expCatCy ts 2 d [0] x 0) := by
  have hd : List.Forall₂ (SameAnswers [splitOn 0 1]) [fun _ => 0, fun _ => 2] [fun _ => 0, fun _ => 2] := by
    rw [List.forall₂_same]
    exact fun _ _ _ _ _ => Iff.rfl
  have hx : SameAnswers [splitOn 0 1] (fun _ => 0) (fun _ => 1) := by
    intro f v h
    obtain ⟨_, rfl⟩ := splitOn_test.1 h
    norm_num
  refine ⟨fun h => ?_, fun h => ?_, fun h => ?_⟩
  all_goals
    have := h _ (splitOn_wf (by norm_num) 1) _ _ hd _ _ hx
    revert this
    decide +kernel

/-- The hypotheses on a tree that asks whether column 0 is at most 1: `1/2` for `0` and `5` for `2`. -/
example : SameOrder [splitOn 0 1] (fun _ => 0) (fun _ => 1 / 2) ∧
    List.Forall₂ (SameOrder [splitOn 0 1]) [fun _ => 0, fun _ => 2] [fun _ => 1 / 2, fun _ => 5] ∧
    List.Forall₂ (TreeStored 2) [splitOn 0 1] [Mem.ofTree (splitOn 0 1) leafJunk] ∧
    shapCy [splitOn 0 1] 2 [fun _ => 1 / 2, fun _ => 5] [[]] (fun _ => 1 / 2) 0 0 = -5 ∧
    shapCy [splitOn 0 1] 2 [fun _ => 0, fun _ => 2] [[]] (fun _ => 0) 0 0 = -5 := by
  have h1 : SameOrder [splitOn 0 1] (fun _ => 0) (fun _ => 1 / 2) := by
    refine ⟨fun f v h => ?_, fun f v h => ?_⟩ <;>
    · obtain ⟨_, rfl⟩ := splitOn_test.1 h
      norm_num
  have h2 : SameOrder [splitOn 0 1] (fun _ => 2) (fun _ => 5) := by
    refine ⟨fun f v h => ?_, fun f v h => ?_⟩ <;>
    · obtain ⟨_, rfl⟩ := splitOn_test.1 h
      norm_num
  exact ⟨h1, .cons h1 (.cons h2 .nil), .cons (splitOn_stored (by norm_num) 1) .nil, by decide +kernel, by decide +kernel⟩

end Acv
