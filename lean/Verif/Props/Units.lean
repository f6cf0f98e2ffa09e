import Verif.Spec.Units
import Verif.Lemmas.Cdp
import Verif.Model.DdpRule
import Verif.Model.SdpReg
import Verif.Model.Normalized
import Verif.Model.ActiveShap
import Verif.Model.TreeSdp
import Verif.Props.Counterfactual
import Verif.Props.Shapley

/-!
# C115: explanations do not depend on the units of the columns

If the entries of every column, and the thresholds that split on it, are converted by a strictly increasing function, the model makes the
same predictions, and the explanations must be the same. `Verif.Spec.Units` says what is converted.
-/

namespace Acv

variable {φ : Nat → ℚ → ℚ}

/-! ## Prediction -/

theorem walk_inUnits (hφ : ∀ f, StrictMono (φ f)) (t : TreeArr) (x : Obs) : ∀ (fuel n : Nat),
    (t.inUnits φ).walk (obsInUnits φ x) fuel n = t.walk x fuel n
  | 0, _ => rfl
  | fuel + 1, n => by
    have hn : (t.inUnits φ).next (obsInUnits φ x) n = t.next x n := by
      unfold TreeArr.next
      show (match (x (t.feature n).toNat).map (φ (t.feature n).toNat) with
        | none => (t.dflt n).toNat
        | some v => if v ≤ φ (t.feature n).toNat (t.threshold n) then (t.left n).toNat else (t.right n).toNat) = _
      cases x (t.feature n).toNat with
      | none => rfl
      | some v => simp only [Option.map_some, (hφ _).le_iff_le]
    unfold TreeArr.walk
    rw [hn, walk_inUnits hφ t x fuel]
    rfl

theorem maxNodes_inUnits (ts : List TreeArr) : maxNodes (ts.map (TreeArr.inUnits φ)) = maxNodes ts := by
  unfold maxNodes
  rw [List.map_map]
  rfl

theorem packedWalk_inUnits (hφ : ∀ f, StrictMono (φ f)) (ts : List TreeArr) (x : Obs) (off : Nat) : ∀ (fuel n : Nat),
    (pack (ts.map (TreeArr.inUnits φ))).walk (obsInUnits φ x) off fuel n = (pack ts).walk x off fuel n := by
  have hl : (pack (ts.map (TreeArr.inUnits φ))).left = (pack ts).left := by
    funext pos
    simp only [pack, maxNodes_inUnits]
    rcases lt_or_ge (pos / maxNodes ts) ts.length with h | h
    · simp [List.getD_eq_getElem?_getD, List.getElem?_map, List.getElem?_eq_getElem h, TreeArr.inUnits]
    · simp [List.getD_eq_getElem?_getD, List.getElem?_map, List.getElem?_eq_none h]
  have hr : (pack (ts.map (TreeArr.inUnits φ))).right = (pack ts).right := by
    funext pos
    simp only [pack, maxNodes_inUnits]
    rcases lt_or_ge (pos / maxNodes ts) ts.length with h | h
    · simp [List.getD_eq_getElem?_getD, List.getElem?_map, List.getElem?_eq_getElem h, TreeArr.inUnits]
    · simp [List.getD_eq_getElem?_getD, List.getElem?_map, List.getElem?_eq_none h]
  have hd : (pack (ts.map (TreeArr.inUnits φ))).dflt = (pack ts).dflt := by
    funext pos
    simp only [pack, maxNodes_inUnits]
    rcases lt_or_ge (pos / maxNodes ts) ts.length with h | h
    · simp [List.getD_eq_getElem?_getD, List.getElem?_map, List.getElem?_eq_getElem h, TreeArr.inUnits]
    · simp [List.getD_eq_getElem?_getD, List.getElem?_map, List.getElem?_eq_none h]
  have hf : (pack (ts.map (TreeArr.inUnits φ))).feature = (pack ts).feature := by
    funext pos
    simp only [pack, maxNodes_inUnits]
    rcases lt_or_ge (pos / maxNodes ts) ts.length with h | h
    · simp [List.getD_eq_getElem?_getD, List.getElem?_map, List.getElem?_eq_getElem h, TreeArr.inUnits]
    · simp [List.getD_eq_getElem?_getD, List.getElem?_map, List.getElem?_eq_none h]
  have ht : ∀ pos, ¬ (pack ts).left pos < 0 →
      (pack (ts.map (TreeArr.inUnits φ))).threshold pos = φ ((pack ts).feature pos).toNat ((pack ts).threshold pos) := by
    intro pos hp
    simp only [pack, maxNodes_inUnits] at hp ⊢
    rcases lt_or_ge (pos / maxNodes ts) ts.length with h | h
    · by_cases hs : pos % maxNodes ts < ts[pos / maxNodes ts].size
      · simp [List.getD_eq_getElem?_getD, List.getElem?_map, List.getElem?_eq_getElem h, TreeArr.inUnits, hs]
      · exfalso
        apply hp
        simp [List.getD_eq_getElem?_getD, List.getElem?_eq_getElem h, hs]
    · exfalso
      apply hp
      simp [List.getD_eq_getElem?_getD, List.getElem?_eq_none h, TreeArr.empty]
  intro fuel
  induction fuel with
  | zero => intro n; simp only [Packed.walk, hl]
  | succ fuel ih =>
    intro n
    simp only [Packed.walk, hl, hr, hd, hf, ih]
    by_cases hp : (pack ts).left (off + n) < 0
    · simp only [hp, if_true]
    · simp only [hp, if_false, ht _ hp]
      congr 1
      show (match (x ((pack ts).feature (off + n)).toNat).map (φ ((pack ts).feature (off + n)).toNat) with
        | none => ((pack ts).dflt (off + n)).toNat
        | some v => if v ≤ φ ((pack ts).feature (off + n)).toNat ((pack ts).threshold (off + n)) then ((pack ts).left (off + n)).toNat
          else ((pack ts).right (off + n)).toNat) = _
      cases x ((pack ts).feature (off + n)).toNat with
      | none => rfl
      | some v => simp only [Option.map_some, (hφ _).le_iff_le]

/-- **C115, predictions** (so the converted model is the same model): the leaf reached in every tree and the prediction of the ensemble,
also for observations with missing entries. -/
theorem C115_predict (hφ : ∀ f, StrictMono (φ f)) (ts : List TreeArr) (x : Obs) :
    (∀ t : TreeArr, (t.inUnits φ).leafOf (obsInUnits φ x) = t.leafOf x) ∧
    ∀ (dfltLimit arg : Option Int) (base : Nat → ℚ) (k : Nat),
      ensemblePredict (ts.map (TreeArr.inUnits φ)) dfltLimit arg base (obsInUnits φ x) k = ensemblePredict ts dfltLimit arg base x k := by
  refine ⟨fun t => walk_inUnits hφ t x _ _, fun dl arg base k => ?_⟩
  have hv : (pack (ts.map (TreeArr.inUnits φ))).value = (pack ts).value := by
    funext pos
    simp only [pack, maxNodes_inUnits]
    rcases lt_or_ge (pos / maxNodes ts) ts.length with h | h
    · simp [List.getD_eq_getElem?_getD, List.getElem?_map, List.getElem?_eq_getElem h, TreeArr.inUnits]
    · simp [List.getD_eq_getElem?_getD, List.getElem?_map, List.getElem?_eq_none h]
  have hn : (pack (ts.map (TreeArr.inUnits φ))).numTrees = (pack ts).numTrees := by simp [pack]
  have hm : (pack (ts.map (TreeArr.inUnits φ))).maxNodes = (pack ts).maxNodes := by simp only [pack, maxNodes_inUnits]
  unfold ensemblePredict Packed.predict
  simp only [hn, hm, packedWalk_inUnits hφ, hv]

/-! ## Leaf-based estimators -/

/-- An interval with its bounds converted. -/
def Ival.conv (f : ℚ → ℚ) (i : Ival) : Ival := ⟨i.lo.map f, i.hi.map f⟩

theorem getPartition_inUnits (hφ : ∀ f, StrictMono (φ f)) (t : TreeArr) : ∀ (fuel id : Nat) (part part' : Rect) (ids : List Int),
    (∀ f, part' f = (part f).conv (φ f)) →
    (∀ f, ((t.inUnits φ).getPartition fuel id part' ids).1 f = ((t.getPartition fuel id part ids).1 f).conv (φ f)) ∧
      ((t.inUnits φ).getPartition fuel id part' ids).2 = (t.getPartition fuel id part ids).2
  | 0, _, _, _, _, h => ⟨h, rfl⟩
  | fuel + 1, id, part, part', ids, h => by
    have hp : ∀ child, (t.inUnits φ).firstParent child id = t.firstParent child id := fun _ => rfl
    have hl : (t.inUnits φ).left = t.left := rfl
    have hr : (t.inUnits φ).right = t.right := rfl
    unfold TreeArr.getPartition
    simp only [hp, hl, hr]
    cases t.firstParent t.right id with
    | some r =>
      refine getPartition_inUnits hφ t fuel r _ _ _ fun f => ?_
      by_cases hf : f = (t.feature r).toNat
      · subst hf
        have e : (part' (t.feature r).toNat).above (φ (t.feature r).toNat (t.threshold r)) =
            ((part (t.feature r).toNat).above (t.threshold r)).conv (φ (t.feature r).toNat) := by
          rw [h]
          unfold Ival.above Ival.conv
          cases (part (t.feature r).toNat).lo with
          | none => rfl
          | some l => simp only [Option.map_some, (hφ _).monotone.map_max]
        simpa [Rect.set, TreeArr.inUnits] using e
      · simpa [Rect.set, TreeArr.inUnits, hf] using h f
    | none =>
      cases t.firstParent t.left id with
      | none => exact ⟨h, rfl⟩
      | some r =>
        refine getPartition_inUnits hφ t fuel r _ _ _ fun f => ?_
        by_cases hf : f = (t.feature r).toNat
        · subst hf
          have e : (part' (t.feature r).toNat).below (φ (t.feature r).toNat (t.threshold r)) =
              ((part (t.feature r).toNat).below (t.threshold r)).conv (φ (t.feature r).toNat) := by
            rw [h]
            unfold Ival.below Ival.conv
            cases (part (t.feature r).toNat).hi with
            | none => rfl
            | some l => simp only [Option.map_some, (hφ _).monotone.map_min]
          simpa [Rect.set, TreeArr.inUnits] using e
        · simpa [Rect.set, TreeArr.inUnits, hf] using h f

theorem leafRect_inUnits (hφ : ∀ f, StrictMono (φ f)) (t : TreeArr) (ℓ : Nat) :
    (t.inUnits φ).leafRect ℓ = fun f => (t.leafRect ℓ f).conv (φ f) :=
  funext fun f => (getPartition_inUnits hφ t t.size ℓ (fun _ => Ival.all) (fun _ => Ival.all) [-1] fun _ => rfl).1 f

theorem leafCols_inUnits (hφ : ∀ f, StrictMono (φ f)) (t : TreeArr) (ℓ : Nat) : (t.inUnits φ).leafCols ℓ = t.leafCols ℓ := by
  have := (getPartition_inUnits hφ t t.size ℓ (fun _ => Ival.all) (fun _ => Ival.all) [-1] fun _ => rfl).2
  unfold TreeArr.leafCols TreeArr.leafVars
  rw [← this]
  rfl

theorem memOC_conv {f : ℚ → ℚ} (hf : StrictMono f) (i : Ival) (v : ℚ) : (i.conv f).memOC (f v) = i.memOC v := by
  unfold Ival.memOC Ival.conv
  cases i.lo <;> cases i.hi <;> simp [hf.le_iff_le, hf.lt_iff_lt]

theorem memCC_conv {f : ℚ → ℚ} (hf : StrictMono f) (i : Ival) (v : ℚ) : (i.conv f).memCC (f v) = i.memCC v := by
  unfold Ival.memCC Ival.conv
  cases i.lo <;> cases i.hi <;> simp [hf.le_iff_le]

theorem sat_inUnits (hφ : ∀ f, StrictMono (φ f)) (r : Rect) (S : List Nat) (z : Row) :
    sat (fun f => (r f).conv (φ f)) S (inUnits φ z) = sat r S z := by
  unfold sat inUnits
  simp only [memOC_conv (hφ _)]

theorem satCC_inUnits (hφ : ∀ f, StrictMono (φ f)) (r : Rect) (S : List Nat) (z : Row) :
    satCC (fun f => (r f).conv (φ f)) S (inUnits φ z) = satCC r S z := by
  unfold satCC inUnits
  simp only [memCC_conv (hφ _)]

theorem eqOn_inUnits (hφ : ∀ f, StrictMono (φ f)) (S : List Nat) (x z : Row) : eqOn S (inUnits φ x) (inUnits φ z) = eqOn S x z := by
  unfold eqOn inUnits
  simp only [(hφ _).injective.eq_iff]

theorem length_filter_inUnits (d : List Row) (p : Row → Bool) :
    ((d.map (inUnits φ)).filter p).length = (d.filter fun z => p (inUnits φ z)).length := by
  rw [List.filter_map, List.length_map]
  rfl

theorem cnt_inUnits (hφ : ∀ f, StrictMono (φ f)) (d : List Row) (r : Rect) (S : List Nat) :
    cnt (d.map (inUnits φ)) (fun f => (r f).conv (φ f)) S = cnt d r S := by
  unfold cnt
  rw [length_filter_inUnits]
  simp only [sat_inUnits hφ]

theorem cntCC_inUnits (hφ : ∀ f, StrictMono (φ f)) (d : List Row) (r : Rect) (S : List Nat) :
    cntCC (d.map (inUnits φ)) (fun f => (r f).conv (φ f)) S = cntCC d r S := by
  unfold cntCC
  rw [length_filter_inUnits]
  simp only [satCC_inUnits hφ]

theorem cntCC2_inUnits (hφ : ∀ f, StrictMono (φ f)) (d : List Row) (r r' : Rect) (S : List Nat) :
    cntCC2 (d.map (inUnits φ)) (fun f => (r f).conv (φ f)) (fun f => (r' f).conv (φ f)) S = cntCC2 d r r' S := by
  unfold cntCC2
  rw [length_filter_inUnits]
  simp only [satCC_inUnits hφ]

theorem sumLeaves_inUnits (hφ : ∀ f, StrictMono (φ f)) (ts : List TreeArr) (k : Nat) (g : Rect → ℚ → ℚ) :
    sumLeaves (ts.map (TreeArr.inUnits φ)) k g = sumLeaves ts k fun r v => g (fun f => (r f).conv (φ f)) v := by
  unfold sumLeaves
  rw [List.map_map]
  congr 1
  refine List.map_congr_left fun t _ => ?_
  show (t.leafIdx.map fun ℓ => g ((t.inUnits φ).leafRect ℓ) (t.value ℓ k)).sum = _
  simp only [leafRect_inUnits hφ]

/-- **C115, Shapley values and conditional expectations**. -/
theorem C115_leaf (hφ : ∀ f, StrictMono (φ f)) (ts : List TreeArr) (m : Nat) (d : List Row) (C : List (List Nat)) (S N : List Nat) (x : Row)
    (j k : Nat) :
    shapCy (ts.map (TreeArr.inUnits φ)) m (d.map (inUnits φ)) C (inUnits φ x) j k = shapCy ts m d C x j k ∧
    shapNorm (ts.map (TreeArr.inUnits φ)) m (d.map (inUnits φ)) C (inUnits φ x) j k = shapNorm ts m d C x j k ∧
    activeCy (ts.map (TreeArr.inUnits φ)) m (d.map (inUnits φ)) C S N (inUnits φ x) j k = activeCy ts m d C S N x j k ∧
    shapPy (ts.map (TreeArr.inUnits φ)) m (d.map (inUnits φ)) C (inUnits φ x) j k = shapPy ts m d C x j k ∧
    expCy (ts.map (TreeArr.inUnits φ)) m (d.map (inUnits φ)) S (inUnits φ x) k = expCy ts m d S x k ∧
    expPy (ts.map (TreeArr.inUnits φ)) m (d.map (inUnits φ)) S (inUnits φ x) k = expPy ts m d S x k ∧
    expCatCy (ts.map (TreeArr.inUnits φ)) m (d.map (inUnits φ)) S (inUnits φ x) k = expCatCy ts m d S x k ∧
    expNormCy (ts.map (TreeArr.inUnits φ)) m (d.map (inUnits φ)) S (inUnits φ x) k = expNormCy ts m d S x k := by
  have hi : ∀ t : TreeArr, (t.inUnits φ).leafIdx = t.leafIdx := fun _ => rfl
  have hv : ∀ t : TreeArr, (t.inUnits φ).value = t.value := fun _ => rfl
  refine ⟨?_, ?_, ?_, ?_, ?_, ?_, ?_, ?_⟩
  · simp only [shapCy, List.map_map, Function.comp_def, hi, hv, leafRect_inUnits hφ, leafCols_inUnits hφ, cyLeafPhi, cyTerm,
      cnt_inUnits hφ, sat_inUnits hφ, length_filter_inUnits, List.length_map]
  · simp only [shapNorm, List.map_map, Function.comp_def, hi, hv, leafRect_inUnits hφ, leafCols_inUnits hφ, normLeafPhi, normTerm,
      cnt_inUnits hφ, sat_inUnits hφ, length_filter_inUnits, List.length_map]
  · simp only [activeCy, List.flatMap_map, hi, hv, leafRect_inUnits hφ, leafCols_inUnits hφ, activeLeafWrites, activeTerm, activeOffTerm,
      cnt_inUnits hφ, sat_inUnits hφ, length_filter_inUnits, List.length_map]
  · have e : ∀ t, shapTreePy (t.inUnits φ) m (d.map (inUnits φ)) C (inUnits φ x) j k = shapTreePy t m d C x j k := by
      intro t
      simp only [shapTreePy, hi, hv, leafRect_inUnits hφ, leafCols_inUnits hφ, pyLeafWrites, pyTerm, cnt_inUnits hφ, sat_inUnits hφ,
        List.length_map]
    simp only [shapPy, List.mapM_map, Function.comp_def, e]
  · simp only [expCy, sumLeaves_inUnits hφ, satCC_inUnits hφ, cntCC_inUnits hφ, cnt_inUnits hφ]
  · simp only [expPy, sumLeaves_inUnits hφ, satCC_inUnits hφ, cntCC_inUnits hφ]
  · simp only [expCatCy, sumLeaves_inUnits hφ, sat_inUnits hφ, length_filter_inUnits, eqOn_inUnits hφ]
  · have e : ∀ t, expNormTree (t.inUnits φ) m (d.map (inUnits φ)) S (inUnits φ x) k = expNormTree t m d S x k := by
      intro t
      simp only [expNormTree, hi, hv, leafRect_inUnits hφ, satCC_inUnits hφ, cntCC_inUnits hφ, cnt_inUnits hφ]
    simp only [expNormCy, List.map_map, Function.comp_def, e]

/-- **C115, same decision probabilities of a tree ensemble**: `lab` and `y` are the predictions of the model, `lab'` and `y'` those of the
converted model. -/
theorem C115_sdp (hφ : ∀ f, StrictMono (φ f)) (ts : List TreeArr) (m : Nat) (d : List Row) {lab lab' : Row → Nat} {y y' : Row → ℚ}
    (hlab : ∀ z, lab' (inUnits φ z) = lab z) (hy : ∀ z, y' (inUnits φ z) = y z) (tX : ℚ) (S : List Nat) (x : Row) :
    sdpClfPy (ts.map (TreeArr.inUnits φ)) m lab' (d.map (inUnits φ)) S (inUnits φ x) = sdpClfPy ts m lab d S x ∧
    sdpClfCy (ts.map (TreeArr.inUnits φ)) m lab' (d.map (inUnits φ)) S (inUnits φ x) = sdpClfCy ts m lab d S x ∧
    sdpClfCat (ts.map (TreeArr.inUnits φ)) m lab' (d.map (inUnits φ)) S (inUnits φ x) = sdpClfCat ts m lab d S x ∧
    sdpRegCatCy (ts.map (TreeArr.inUnits φ)) m y' tX (d.map (inUnits φ)) S (inUnits φ x) = sdpRegCatCy ts m y tX d S x ∧
    sdpRegPy (ts.map (TreeArr.inUnits φ)) m y' tX (d.map (inUnits φ)) S (inUnits φ x) = sdpRegPy ts m y tX d S x := by
  have hi : ∀ t : TreeArr, (t.inUnits φ).leafIdx = t.leafIdx := fun _ => rfl
  have hv : ∀ t : TreeArr, (t.inUnits φ).value = t.value := fun _ => rfl
  have hf : ∀ (l : List Row) (p : Row → Bool), (l.map (inUnits φ)).filter p = (l.filter fun z => p (inUnits φ z)).map (inUnits φ) := by
    intro l p
    rw [List.filter_map]
    rfl
  have hpairs : ∀ (diag : TreeArr → ℚ) (off : TreeArr → TreeArr → ℚ), sumTreePairs (ts.map (TreeArr.inUnits φ)) diag off =
      sumTreePairs ts (fun t => diag (t.inUnits φ)) fun t t' => off (t.inUnits φ) (t'.inUnits φ) := by
    intro diag off
    simp only [sumTreePairs, List.zipIdx_map, List.map_map, Function.comp_def, Prod.map]
    rfl
  refine ⟨?_, ?_, ?_, ?_, ?_⟩
  · simp only [sdpClfPy, hlab, hf, sumLeaves_inUnits hφ, satCC_inUnits hφ, cntCC_inUnits hφ]
  · simp only [sdpClfCy, hlab, hf, List.map_map, Function.comp_def, hi, hv, leafRect_inUnits hφ, satCC_inUnits hφ, cntCC_inUnits hφ]
  · simp only [sdpClfCat, hlab, hf, eqOn_inUnits hφ, sumLeaves_inUnits hφ, satCC_inUnits hφ, cntCC_inUnits hφ, List.length_map]
  · simp only [sdpRegCatCy, hy, hf, eqOn_inUnits hφ, regCatMean, hpairs, hi, hv, leafRect_inUnits hφ, satCC_inUnits hφ, cntCC_inUnits hφ,
      cntCC2_inUnits hφ, List.length_map]
  · simp only [sdpRegPy, hy, hf, regLeafMean, hpairs, hi, hv, leafRect_inUnits hφ, satCC_inUnits hφ, cntCC_inUnits hφ,
      cntCC2_inUnits hφ]

/-! ## The projected forest -/

/-- Decisions that agree after the conversion. -/
def SameDir (φ : Nat → ℚ → ℚ) (dir dir' : Int → ℚ → Option Bool) : Prop := ∀ f thr, dir' f (φ f.toNat thr) = dir f thr

theorem dirS_inUnits (hφ : ∀ f, StrictMono (φ f)) (S : List Nat) (x : Row) : SameDir φ (dirS S x) (dirS S (inUnits φ x)) := by
  intro f thr
  simp only [dirS, dirPoint, inUnits, (hφ _).le_iff_le]

theorem dirBox_inUnits (hφ : ∀ f, StrictMono (φ f)) (c : Rule) : SameDir φ (dirBox c) (dirBox (condInUnits φ c)) := by
  intro f thr
  simp only [dirBox, condInUnits, (hφ _).le_iff_le, (hφ _).lt_iff_lt]

theorem dirCond_inUnits (hφ : ∀ f, StrictMono (φ f)) (S : List Nat) (x : Row) (c : Rule) :
    SameDir φ (dirCond S x c) (dirCond S (inUnits φ x) (condInUnits φ c)) := by
  intro f thr
  simp only [dirCond, dirPoint, dirBox_inUnits hφ c f thr, inUnits, (hφ _).le_iff_le]

theorem dirIntv_inUnits (hφ : ∀ f, StrictMono (φ f)) (S : List Nat) (c : Rule) :
    SameDir φ (dirIntv S c) (dirIntv S (condInUnits φ c)) := by
  intro f thr
  simp only [dirIntv, dirBox_inUnits hφ c f thr]

/-- Walks in the same state, in two units. -/
structure UnitState (φ : Nat → ℚ → ℚ) (st st' : PState) : Prop where
  child : st'.child = st.child
  rows : st'.rows = st.rows

theorem visitD_inUnits (hφ : ∀ f, StrictMono (φ f)) {dir dir' : Int → ℚ → Option Bool} (hd : SameDir φ dir dir') (mem : Mem)
    (push : List Int → Int → List Int) (data : Nat → Row) (n : Int) {st st' : PState} (h : UnitState φ st st') :
    UnitState φ (mem.visitD push dir data n st) ((mem.inUnits φ).visitD push dir' (fun i => inUnits φ (data i)) n st') := by
  unfold Mem.visitD
  have e : dir' ((mem.inUnits φ).feat n) ((mem.inUnits φ).thr n) = dir (mem.feat n) (mem.thr n) := hd _ _
  rw [e]
  cases dir (mem.feat n) (mem.thr n) with
  | none => exact ⟨by simp only [h.child]; rfl, h.rows⟩
  | some b =>
    cases b with
    | true =>
      refine ⟨by simp only [h.child]; rfl, ?_⟩
      simp only [h.rows, Mem.inUnits, inUnits, (hφ _).lt_iff_lt]
    | false =>
      refine ⟨by simp only [h.child]; rfl, ?_⟩
      simp only [h.rows, Mem.inUnits, inUnits, (hφ _).le_iff_le]

theorem scanD_inUnits (hφ : ∀ f, StrictMono (φ f)) {dir dir' : Int → ℚ → Option Bool} (hd : SameDir φ dir dir') (mem : Mem)
    (push : List Int → Int → List Int) (data : Nat → Row) (minSize : Nat) : ∀ (ns : List Int) {st st' : PState}, UnitState φ st st' →
    UnitState φ (mem.scanD push dir data minSize ns st) ((mem.inUnits φ).scanD push dir' (fun i => inUnits φ (data i)) minSize ns st')
  | [], _, _, h => h
  | n :: ns, st, st', h => by
    have hv := visitD_inUnits hφ hd mem push data n h
    unfold Mem.scanD
    simp only [hv.rows]
    by_cases hc : (mem.visitD push dir data n st).rows.length < minSize
    · rw [if_pos hc, if_pos hc]; exact hv
    · rw [if_neg hc, if_neg hc]; exact scanD_inUnits hφ hd mem push data minSize ns hv

theorem levelsD_inUnits (hφ : ∀ f, StrictMono (φ f)) {dir dir' : Int → ℚ → Option Bool} (hd : SameDir φ dir dir') (mem : Mem)
    (push : List Int → Int → List Int) (data : Nat → Row) (minSize : Nat) : ∀ (k : Nat) (ns : List Int) {st st' : PState},
    UnitState φ st st' →
    UnitState φ (mem.levelsD push dir data minSize k ns st) ((mem.inUnits φ).levelsD push dir' (fun i => inUnits φ (data i)) minSize k ns st')
  | 0, _, _, _, h => h
  | k + 1, ns, st, st', h => by
    have hv := scanD_inUnits hφ hd mem push data minSize ns h
    unfold Mem.levelsD
    simp only [hv.child]
    exact levelsD_inUnits hφ hd mem push data minSize k _ hv

theorem forestRunD_inUnits (hφ : ∀ f, StrictMono (φ f)) {dir dir' : Int → ℚ → Option Bool} (hd : SameDir φ dir dir')
    (push : List Int → Int → List Int) (data : Nat → Row) (minSize maxDepth N : Nat) : ∀ (mems : List Mem) (r r' : Rule),
    (forestRunD push dir' (fun i => inUnits φ (data i)) minSize maxDepth N (mems.map (Mem.inUnits φ)) r').1 =
      (forestRunD push dir data minSize maxDepth N mems r).1
  | [], _, _ => rfl
  | mem :: mems, r, r' => by
    have hv := levelsD_inUnits hφ hd mem push data minSize maxDepth [0] (st := ⟨[], List.range N, r⟩) (st' := ⟨[], List.range N, r'⟩) ⟨rfl, rfl⟩
    rw [List.map_cons]
    unfold forestRunD Mem.runD
    simp only [hv.rows]
    congr 1
    exact forestRunD_inUnits hφ hd push data minSize maxDepth N mems _ _

/-- **C115, the projected forest**: the same probabilities, means, distribution functions and weights. -/
theorem C115_forest (hφ : ∀ f, StrictMono (φ f)) (mems : List Mem) (S : List Nat) (x : Row) (yx : ℚ) (data : Nat → Row) (y : Nat → ℚ)
    (minSize maxDepth N : Nat) (classifier : Bool) (t : ℚ × ℚ) :
    sdpRf (mems.map (Mem.inUnits φ)) S (inUnits φ x) yx (fun i => inUnits φ (data i)) y minSize maxDepth N classifier t =
      sdpRf mems S x yx data y minSize maxDepth N classifier t ∧
    ddpRf (mems.map (Mem.inUnits φ)) S (inUnits φ x) yx (fun i => inUnits φ (data i)) y minSize maxDepth N classifier t =
      ddpRf mems S x yx data y minSize maxDepth N classifier t ∧
    expRf (mems.map (Mem.inUnits φ)) S (inUnits φ x) (fun i => inUnits φ (data i)) y minSize maxDepth N = expRf mems S x data y minSize maxDepth N ∧
    (∀ q : ℚ, cdfRf (mems.map (Mem.inUnits φ)) S (inUnits φ x) (fun i => inUnits φ (data i)) y minSize maxDepth N q =
      cdfRf mems S x data y minSize maxDepth N q) ∧
    ruleWeights (mems.map (Mem.inUnits φ)) S (inUnits φ x) (fun i => inUnits φ (data i)) minSize maxDepth N =
      ruleWeights mems S x data minSize maxDepth N := by
  have h : ∀ push, (forestRun push S (inUnits φ x) (fun i => inUnits φ (data i)) minSize maxDepth N (mems.map (Mem.inUnits φ)) Rule.init).1 =
      (forestRun push S x data minSize maxDepth N mems Rule.init).1 := by
    intro push
    rw [← forestRunD_dirS, ← forestRunD_dirS]
    exact forestRunD_inUnits hφ (dirS_inUnits hφ S x) push data minSize maxDepth N mems _ _
  have hs : cellsSet (mems.map (Mem.inUnits φ)) S (inUnits φ x) (fun i => inUnits φ (data i)) minSize maxDepth N =
      cellsSet mems S x data minSize maxDepth N := h _
  have hv : cellsVec (mems.map (Mem.inUnits φ)) S (inUnits φ x) (fun i => inUnits φ (data i)) minSize maxDepth N =
      cellsVec mems S x data minSize maxDepth N := h _
  refine ⟨?_, ?_, ?_, fun q => ?_, ?_⟩
  · simp only [sdpRf, hs]
  · simp only [ddpRf, hs]
  · simp only [expRf, hs]
  · simp only [cdfRf, hv]
  · funext i; simp only [ruleWeights, hs]

/-- **C115, counterfactual, conditional and interventional probabilities**. -/
theorem C115_cdp (hφ : ∀ f, StrictMono (φ f)) (mems : List Mem) (S : List Nat) (x : Row) (cond : Rule) (yx down up : ℚ) (data : Nat → Row)
    (y : Nat → ℚ) (minSize maxDepth N : Nat) (classifier : Bool) (t : ℚ × ℚ) :
    cdpWeights (mems.map (Mem.inUnits φ)) S (inUnits φ x) yx down up (fun i => inUnits φ (data i)) y minSize maxDepth N classifier =
      cdpWeights mems S x yx down up data y minSize maxDepth N classifier ∧
    cdpCond (mems.map (Mem.inUnits φ)) S (inUnits φ x) (condInUnits φ cond) yx down up (fun i => inUnits φ (data i)) y minSize maxDepth N
      classifier = cdpCond mems S x cond yx down up data y minSize maxDepth N classifier ∧
    ddpCond (mems.map (Mem.inUnits φ)) S (inUnits φ x) (condInUnits φ cond) yx t (fun i => inUnits φ (data i)) y minSize maxDepth N classifier =
      ddpCond mems S x cond yx t data y minSize maxDepth N classifier ∧
    cdpIntv (mems.map (Mem.inUnits φ)) S (condInUnits φ cond) yx t (fun i => inUnits φ (data i)) y minSize maxDepth N classifier =
      cdpIntv mems S cond yx t data y minSize maxDepth N classifier ∧
    ddpIntv (mems.map (Mem.inUnits φ)) S (condInUnits φ cond) yx t (fun i => inUnits φ (data i)) y minSize maxDepth N classifier =
      ddpIntv mems S cond yx t data y minSize maxDepth N classifier := by
  have h : ∀ {dir dir'}, SameDir φ dir dir' → cellsD (mems.map (Mem.inUnits φ)) dir' (fun i => inUnits φ (data i)) minSize maxDepth N =
      cellsD mems dir data minSize maxDepth N := fun hd => forestRunD_inUnits hφ hd setInsert data minSize maxDepth N mems _ _
  refine ⟨?_, ?_, ?_, ?_, ?_⟩
  · simp only [cdpWeights, h (dirS_inUnits hφ S x)]
  · simp only [cdpCond, h (dirCond_inUnits hφ S x cond)]
  · simp only [ddpCond, h (dirCond_inUnits hφ S x cond)]
  · simp only [cdpIntv, h (dirIntv_inUnits hφ S cond)]
  · simp only [ddpIntv, h (dirIntv_inUnits hφ S cond)]

/-! ## Rules -/

/-- Strictly between the numbers that stand for an absent bound. -/
def InRange (v : ℚ) : Prop := -10000000000 < v ∧ v < 10000000000

/-- A bound absent in both units, or converted and in the range in both. -/
def TrackBound (init : ℚ) (conv : ℚ → ℚ) (b b' : ℚ) : Prop := (b = init ∧ b' = init) ∨ (b' = conv b ∧ InRange b ∧ InRange b')

/-- The same for both bounds of every column. -/
def TrackRule (φ : Nat → ℚ → ℚ) (r r' : Rule) : Prop :=
  ∀ f, TrackBound (-10000000000) (φ f) (r f).1 (r' f).1 ∧ TrackBound 10000000000 (φ f) (r f).2 (r' f).2

theorem TrackRule.below (hφ : ∀ f, StrictMono (φ f)) {r r' : Rule} (h : TrackRule φ r r') {f : Nat} {thr : ℚ} (h1 : InRange thr)
    (h2 : InRange (φ f thr)) : TrackRule φ (r.below f thr) (r'.below f (φ f thr)) := by
  intro g
  unfold Rule.below
  by_cases hg : g = f
  · subst hg
    simp only [if_true]
    rcases (h g).2 with ⟨e, e'⟩ | ⟨e, hb, hb'⟩
    · rw [if_pos (by rw [e]; exact h1.2.le), if_pos (by rw [e']; exact h2.2.le)]
      exact ⟨(h g).1, Or.inr ⟨rfl, h1, h2⟩⟩
    · by_cases hc : thr ≤ (r g).2
      · rw [if_pos hc, if_pos (by rw [e]; exact (hφ g).monotone hc)]
        exact ⟨(h g).1, Or.inr ⟨rfl, h1, h2⟩⟩
      · rw [if_neg hc, if_neg (by rw [e, (hφ g).le_iff_le]; exact hc)]
        exact h g
  · simp only [hg, if_false]
    exact h g

theorem TrackRule.above (hφ : ∀ f, StrictMono (φ f)) {r r' : Rule} (h : TrackRule φ r r') {f : Nat} {thr : ℚ} (h1 : InRange thr)
    (h2 : InRange (φ f thr)) : TrackRule φ (r.above f thr) (r'.above f (φ f thr)) := by
  intro g
  unfold Rule.above
  by_cases hg : g = f
  · subst hg
    simp only [if_true]
    rcases (h g).1 with ⟨e, e'⟩ | ⟨e, hb, hb'⟩
    · rw [if_pos (by rw [e]; exact h1.1.le), if_pos (by rw [e']; exact h2.1.le)]
      exact ⟨Or.inr ⟨rfl, h1, h2⟩, (h g).2⟩
    · by_cases hc : (r g).1 ≤ thr
      · rw [if_pos hc, if_pos (by rw [e]; exact (hφ g).monotone hc)]
        exact ⟨Or.inr ⟨rfl, h1, h2⟩, (h g).2⟩
      · rw [if_neg hc, if_neg (by rw [e, (hφ g).le_iff_le]; exact hc)]
        exact h g
  · simp only [hg, if_false]
    exact h g

/-- Walks in the same state with tracked rules. -/
structure UnitRuleState (φ : Nat → ℚ → ℚ) (st st' : PState) : Prop where
  same : UnitState φ st st'
  rule : TrackRule φ st.rule st'.rule

/-- The thresholds that can narrow the rule are in the range in both units. -/
def ThrInRange (φ : Nat → ℚ → ℚ) (dir : Int → ℚ → Option Bool) (mem : Mem) : Prop :=
  ∀ n, dir (mem.feat n) (mem.thr n) ≠ none → InRange (mem.thr n) ∧ InRange (φ (mem.feat n).toNat (mem.thr n))

theorem visitD_inUnits_rule (hφ : ∀ f, StrictMono (φ f)) {dir dir' : Int → ℚ → Option Bool} (hd : SameDir φ dir dir') {mem : Mem}
    (hm : ThrInRange φ dir mem) (push : List Int → Int → List Int) (data : Nat → Row) (n : Int) {st st' : PState} (h : UnitRuleState φ st st') :
    UnitRuleState φ (mem.visitD push dir data n st) ((mem.inUnits φ).visitD push dir' (fun i => inUnits φ (data i)) n st') := by
  refine ⟨visitD_inUnits hφ hd mem push data n h.same, ?_⟩
  have hr := hm n
  unfold Mem.visitD
  have e : dir' ((mem.inUnits φ).feat n) ((mem.inUnits φ).thr n) = dir (mem.feat n) (mem.thr n) := hd _ _
  rw [e]
  cases hc : dir (mem.feat n) (mem.thr n) with
  | none => exact h.rule
  | some b =>
    have hr' := hr (by rw [hc]; simp)
    cases b with
    | true => exact h.rule.below hφ hr'.1 hr'.2
    | false => exact h.rule.above hφ hr'.1 hr'.2

theorem scanD_inUnits_rule (hφ : ∀ f, StrictMono (φ f)) {dir dir' : Int → ℚ → Option Bool} (hd : SameDir φ dir dir') {mem : Mem}
    (hm : ThrInRange φ dir mem) (push : List Int → Int → List Int) (data : Nat → Row) (minSize : Nat) :
    ∀ (ns : List Int) {st st' : PState}, UnitRuleState φ st st' →
    UnitRuleState φ (mem.scanD push dir data minSize ns st) ((mem.inUnits φ).scanD push dir' (fun i => inUnits φ (data i)) minSize ns st')
  | [], _, _, h => h
  | n :: ns, st, st', h => by
    have hv := visitD_inUnits_rule hφ hd hm push data n h
    unfold Mem.scanD
    simp only [hv.same.rows]
    by_cases hc : (mem.visitD push dir data n st).rows.length < minSize
    · rw [if_pos hc, if_pos hc]; exact hv
    · rw [if_neg hc, if_neg hc]; exact scanD_inUnits_rule hφ hd hm push data minSize ns hv

theorem levelsD_inUnits_rule (hφ : ∀ f, StrictMono (φ f)) {dir dir' : Int → ℚ → Option Bool} (hd : SameDir φ dir dir') {mem : Mem}
    (hm : ThrInRange φ dir mem) (push : List Int → Int → List Int) (data : Nat → Row) (minSize : Nat) :
    ∀ (k : Nat) (ns : List Int) {st st' : PState}, UnitRuleState φ st st' →
    UnitRuleState φ (mem.levelsD push dir data minSize k ns st)
      ((mem.inUnits φ).levelsD push dir' (fun i => inUnits φ (data i)) minSize k ns st')
  | 0, _, _, _, h => h
  | k + 1, ns, st, st', h => by
    have hv := scanD_inUnits_rule hφ hd hm push data minSize ns h
    unfold Mem.levelsD
    simp only [hv.same.child]
    exact levelsD_inUnits_rule hφ hd hm push data minSize k _ hv

theorem forestRunD_inUnits_rule (hφ : ∀ f, StrictMono (φ f)) {dir dir' : Int → ℚ → Option Bool} (hd : SameDir φ dir dir')
    (push : List Int → Int → List Int) (data : Nat → Row) (minSize maxDepth N : Nat) : ∀ (mems : List Mem),
    (∀ mem ∈ mems, ThrInRange φ dir mem) → ∀ (r r' : Rule), TrackRule φ r r' →
    TrackRule φ (forestRunD push dir data minSize maxDepth N mems r).2
      (forestRunD push dir' (fun i => inUnits φ (data i)) minSize maxDepth N (mems.map (Mem.inUnits φ)) r').2
  | [], _, _, _, h => h
  | mem :: mems, hm, r, r', h => by
    have hv := levelsD_inUnits_rule hφ hd (hm mem (List.mem_cons_self ..)) push data minSize maxDepth [0] (st := ⟨[], List.range N, r⟩)
      (st' := ⟨[], List.range N, r'⟩) ⟨⟨rfl, rfl⟩, h⟩
    rw [List.map_cons]
    unfold forestRunD Mem.runD
    exact forestRunD_inUnits_rule hφ hd push data minSize maxDepth N mems (fun mem h => hm mem (List.mem_cons_of_mem _ h)) _ _ hv.rule

/-- The claim of C115 for rules: the bounds of the rule are converted. -/
def C115_rule_claim : Prop :=
  ∀ (φ : Nat → ℚ → ℚ), (∀ f, StrictMono (φ f)) →
  ∀ (m : Nat) (ts : List TreeArr) (mems : List Mem), List.Forall₂ (TreeStored m) ts mems →
  ∀ (S : List Nat) (x : Row) (yx : ℚ) (data : Nat → Row) (y : Nat → ℚ) (minSize maxDepth N : Nat) (classifier : Bool) (t : ℚ × ℚ) (f : Nat),
    SameBound (-10000000000) (φ f) ((sdpRule mems S x yx data y minSize maxDepth N classifier t).2 f).1
      ((sdpRule (mems.map (Mem.inUnits φ)) S (inUnits φ x) yx (fun i => inUnits φ (data i)) y minSize maxDepth N classifier t).2 f).1 ∧
    SameBound 10000000000 (φ f) ((sdpRule mems S x yx data y minSize maxDepth N classifier t).2 f).2
      ((sdpRule (mems.map (Mem.inUnits φ)) S (inUnits φ x) yx (fun i => inUnits φ (data i)) y minSize maxDepth N classifier t).2 f).2

/-- **C115, rules, partial**: if the thresholds on the columns of `S` lie strictly between -1e10 and 1e10 in both units, a bound of the rule
is absent in both units or is the converted bound; the probability is the same in any case. Missing (false): thresholds beyond 1e10. -/
theorem C115_rule_partial (hφ : ∀ f, StrictMono (φ f)) (mems : List Mem) (S : List Nat) (x : Row) (yx : ℚ) (data : Nat → Row) (y : Nat → ℚ)
    (minSize maxDepth N : Nat) (classifier : Bool) (t : ℚ × ℚ) :
    (sdpRule (mems.map (Mem.inUnits φ)) S (inUnits φ x) yx (fun i => inUnits φ (data i)) y minSize maxDepth N classifier t).1 =
      (sdpRule mems S x yx data y minSize maxDepth N classifier t).1 ∧
    ((∀ mem ∈ mems, ∀ n, 0 ≤ mem.feat n → (mem.feat n).toNat ∈ S →
        (-10000000000 < mem.thr n ∧ mem.thr n < 10000000000) ∧
        -10000000000 < φ (mem.feat n).toNat (mem.thr n) ∧ φ (mem.feat n).toNat (mem.thr n) < 10000000000) →
      ∀ f, SameBound (-10000000000) (φ f) ((sdpRule mems S x yx data y minSize maxDepth N classifier t).2 f).1
          ((sdpRule (mems.map (Mem.inUnits φ)) S (inUnits φ x) yx (fun i => inUnits φ (data i)) y minSize maxDepth N classifier t).2 f).1 ∧
        SameBound 10000000000 (φ f) ((sdpRule mems S x yx data y minSize maxDepth N classifier t).2 f).2
          ((sdpRule (mems.map (Mem.inUnits φ)) S (inUnits φ x) yx (fun i => inUnits φ (data i)) y minSize maxDepth N classifier t).2 f).2) := by
  constructor
  · exact (C115_forest hφ mems S x yx data y minSize maxDepth N classifier t).1
  · intro hr f
    have hm : ∀ mem ∈ mems, ThrInRange φ (dirS S x) mem := by
      intro mem hmem n hn
      have hi : inS S (mem.feat n) = true := by
        by_contra hc
        apply hn
        simp [dirS, hc]
      simp only [inS, Bool.and_eq_true, decide_eq_true_eq] at hi
      exact hr mem hmem n hi.1 hi.2
    have h := forestRunD_inUnits_rule hφ (dirS_inUnits hφ S x) setInsert data minSize maxDepth N mems hm Rule.init Rule.init
      (fun f => ⟨Or.inl ⟨rfl, rfl⟩, Or.inl ⟨rfl, rfl⟩⟩) f
    rw [forestRunD_dirS, forestRunD_dirS] at h
    exact ⟨h.1.imp id fun h => h.1, h.2.imp id fun h => h.1⟩

/-- Grams instead of kilograms in column 0, degrees Fahrenheit instead of Celsius elsewhere. -/
def exUnits (f : Nat) (v : ℚ) : ℚ := if f = 0 then 1000 * v else 9/5 * v + 32

theorem exUnits_mono : ∀ f, StrictMono (exUnits f) := by
  intro f a b h
  unfold exUnits
  split <;> linarith

example : shapCy [exTree] 3 exData [[2, 1]] (fun _ => 2) 2 0 = -65 / 12 ∧
    shapCy [exTree.inUnits exUnits] 3 (exData.map (inUnits exUnits)) [[2, 1]] (inUnits exUnits fun _ => 2) 2 0 = -65 / 12 := by
  refine ⟨by decide +kernel, by decide +kernel⟩

example : (List.range 3).map (sdpRule [(Mem.ofTree ladderTree leafJunk).inUnits exUnits] [0, 1] (inUnits exUnits (diag 2)) 1
      (fun i => inUnits exUnits (diag i)) (fun i => if i < 3 then 1 else 0) 1 3 10 true (0, 0)).2 =
    [(1000, 10000000000), (-10000000000, 187/5), (-10000000000, 10000000000)] ∧
    (List.range 3).map (sdpRule [Mem.ofTree ladderTree leafJunk] [0, 1] (diag 2) 1
      diag (fun i => if i < 3 then 1 else 0) 1 3 10 true (0, 0)).2 =
    [(1, 10000000000), (-10000000000, 3), (-10000000000, 10000000000)] := by
  refine ⟨by decide +kernel, by decide +kernel⟩

/-- **C115 is false of rules**: 1e10 stands for an absent bound, so in units where the threshold is 1e11 the bound is lost. -/
theorem C115_rule_false : ¬ C115_rule_claim := by
  intro h
  have := (h (fun _ v => 100000000000 * v) (fun _ a b h => by simp only; linarith) 2 [splitOn 0 1] [Mem.ofTree (splitOn 0 1) leafJunk]
    (.cons (splitOn_stored (by decide) _) .nil) [0] (fun _ => 0) 1 (fun _ _ => 0) (fun _ => 1) 1 1 1 true (0, 0) 0).2
  unfold SameBound at this
  revert this
  decide +kernel

end Acv
