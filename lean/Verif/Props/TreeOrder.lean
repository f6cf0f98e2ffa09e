import Verif.Lemmas.TreeOrder
import Verif.Model.DdpRule
import Verif.Model.Normalized
import Verif.Model.ActiveShap
import Verif.Props.Counterfactual
import Verif.Props.Tree

/-!
# C116: an ensemble is a set of trees, not a sequence

The same trees in another order (`List.Perm`) make the same predictions and have the same explanations. With a tree limit they are another
model.
-/

namespace Acv

/-- **C116, predictions** of the whole ensemble. -/
theorem C116_predict {ts ts' : List TreeArr} (h : ts.Perm ts') {d : Nat} (hw : ∀ t ∈ ts, WellFormed t d) (base : Nat → ℚ) (x : Obs) (k : Nat) :
    ensemblePredict ts' none none base x k = ensemblePredict ts none none base x k := by
  have hw' : ∀ t ∈ ts', WellFormed t d := fun t ht => hw t (h.mem_iff.2 ht)
  have h1 := C03_predict_is_sum_of_leaf_values hw none none base x k
  have h2 := C03_predict_is_sum_of_leaf_values hw' none none base x k
  classical
  let leaf : TreeArr → Nat := fun t => if ht : ∃ ℓ, EndsIn t x ℓ then ht.choose else 0
  have hl : ∀ t ∈ ts, EndsIn t x (leaf t) := by
    intro t ht
    have he : ∃ ℓ, EndsIn t x ℓ := (h1.1 t ht).exists
    simp only [leaf, dif_pos he]
    exact he.choose_spec
  rw [h1.2 leaf hl, h2.2 leaf fun t ht => hl t (h.mem_iff.2 ht)]
  have e : ∀ n, effLimit n none none = n := by intro n; rw [C03_tree_limit]; rfl
  rw [e, e, List.take_length, List.take_length, (h.map _).sum_eq]

theorem sumLeaves_perm {ts ts' : List TreeArr} (h : ts.Perm ts') (k : Nat) (f : Rect → ℚ → ℚ) : sumLeaves ts' k f = sumLeaves ts k f :=
  (h.map _).sum_eq.symm

/-- **C116, Shapley values and conditional expectations**, of the Cython and of the Python versions. -/
theorem C116_leaf {ts ts' : List TreeArr} (h : ts.Perm ts') (m : Nat) (data : List Row) (C : List (List Nat)) (S N : List Nat) (x : Row)
    (j k : Nat) :
    shapCy ts' m data C x j k = shapCy ts m data C x j k ∧
    shapNorm ts' m data C x j k = shapNorm ts m data C x j k ∧
    activeCy ts' m data C S N x j k = activeCy ts m data C S N x j k ∧
    shapPy ts' m data C x j k = shapPy ts m data C x j k ∧
    shapV2 ts' m data C x j k = shapV2 ts m data C x j k ∧
    expCy ts' m data S x k = expCy ts m data S x k ∧
    expPy ts' m data S x k = expPy ts m data S x k ∧
    expCatCy ts' m data S x k = expCatCy ts m data S x k ∧
    expNormCy ts' m data S x k = expNormCy ts m data S x k := by
  refine ⟨?_, ?_, ?_, ?_, ?_, ?_, ?_, ?_, ?_⟩
  · unfold shapCy
    rw [(h.map _).sum_eq]
  · unfold shapNorm
    rw [(h.map _).sum_eq]
  · unfold activeCy cellWrites
    rw [osum_perm (((h.flatMap_right _).filter _).map _)]
  · unfold shapPy
    rw [mapM_except_unit, mapM_except_unit]
    have : ∀ p : TreeArr → Bool, ts.all p = ts'.all p := by
      intro p
      rw [Bool.eq_iff_iff, List.all_eq_true, List.all_eq_true]
      exact ⟨fun hp t ht => hp t (h.mem_iff.2 ht), fun hp t ht => hp t (h.mem_iff.1 ht)⟩
    rw [this]
    split
    · exact congrArg Except.ok (osum_perm (h.map _)).symm
    · rfl
  · exact osum_perm (h.map _).symm
  · exact sumLeaves_perm h _ _
  · simp only [expPy, sumLeaves_perm h]
  · exact sumLeaves_perm h _ _
  · exact osum_perm (h.map _).symm

/-- **C116, same decision probabilities** of a classifier and of a regressor, computed from the leaves. -/
theorem C116_sdp {ts ts' : List TreeArr} (h : ts.Perm ts') (m : Nat) (lab : Row → Nat) (y : Row → ℚ) (tX : ℚ) (data : List Row) (S : List Nat)
    (x : Row) :
    sdpClfPy ts' m lab data S x = sdpClfPy ts m lab data S x ∧
    sdpClfCy ts' m lab data S x = sdpClfCy ts m lab data S x ∧
    sdpClfCat ts' m lab data S x = sdpClfCat ts m lab data S x ∧
    sdpRegCatCy ts' m y tX data S x = sdpRegCatCy ts m y tX data S x ∧
    sdpRegCatPy ts' m y tX data S x = sdpRegCatPy ts m y tX data S x ∧
    sdpRegPy ts' m y tX data S x = sdpRegPy ts m y tX data S x := by
  have hs : ∀ f : TreeArr → ℚ, (ts'.map f).sum = (ts.map f).sum := fun f => (h.map f).sum_eq.symm
  have hcy : sdpRegCatCy ts' m y tX data S x = sdpRegCatCy ts m y tX data S x := by
    simp only [sdpRegCatCy, regCatMean, sumTreePairs_perm h]
  refine ⟨?_, ?_, ?_, hcy, ?_, ?_⟩
  · simp only [sdpClfPy, sumLeaves_perm h]
  · simp only [sdpClfCy, hs]
  · simp only [sdpClfCat, sumLeaves_perm h]
  · simp only [sdpRegCatPy, hcy]
  · simp only [sdpRegPy, regLeafMean, sumTreePairs_perm h]

variable {mems mems' : List Mem} {data : Nat → Row} {y : Nat → ℚ} {minSize maxDepth N : Nat}

theorem cellsD_perm (h : mems.Perm mems') (dir : Int → ℚ → Option Bool) :
    (cellsD mems dir data minSize maxDepth N).Perm (cellsD mems' dir data minSize maxDepth N) :=
  (forestRunD_perm setInsert dir data minSize h maxDepth N Rule.init).1

theorem forestRun_perm (h : mems.Perm mems') (push : List Int → Int → List Int) (S : List Nat) (x : Row) :
    (forestRun push S x data minSize maxDepth N mems Rule.init).1.Perm (forestRun push S x data minSize maxDepth N mems' Rule.init).1 ∧
    (forestRun push S x data minSize maxDepth N mems' Rule.init).2 = (forestRun push S x data minSize maxDepth N mems Rule.init).2 := by
  have := forestRunD_perm push (dirS S x) data minSize h maxDepth N Rule.init
  rw [forestRunD_dirS, forestRunD_dirS] at this
  exact this

/-- **C116, the projected forest**: probabilities, mean, distribution function, weights of the rows, and the rule with its bounds. -/
theorem C116_forest (h : mems.Perm mems') (S : List Nat) (x : Row) (yx : ℚ) (classifier : Bool) (t : ℚ × ℚ) :
    sdpRf mems' S x yx data y minSize maxDepth N classifier t = sdpRf mems S x yx data y minSize maxDepth N classifier t ∧
    ddpRf mems' S x yx data y minSize maxDepth N classifier t = ddpRf mems S x yx data y minSize maxDepth N classifier t ∧
    expRf mems' S x data y minSize maxDepth N = expRf mems S x data y minSize maxDepth N ∧
    (∀ q : ℚ, cdfRf mems' S x data y minSize maxDepth N q = cdfRf mems S x data y minSize maxDepth N q) ∧
    sdpRule mems' S x yx data y minSize maxDepth N classifier t = sdpRule mems S x yx data y minSize maxDepth N classifier t ∧
    ddpRule mems' S x yx data y minSize maxDepth N classifier t = ddpRule mems S x yx data y minSize maxDepth N classifier t ∧
    ∀ i, ruleWeights mems' S x data minSize maxDepth N i = ruleWeights mems S x data minSize maxDepth N i := by
  have hs := forestRun_perm (data := data) (minSize := minSize) (maxDepth := maxDepth) (N := N) h setInsert S x
  have hv := forestRun_perm (data := data) (minSize := minSize) (maxDepth := maxDepth) (N := N) h pushBack S x
  refine ⟨?_, ?_, ?_, fun q => ?_, ?_, ?_, fun i => ?_⟩
  · exact cellSum_perm hs.1 _
  · exact cellSum_perm hs.1 _
  · exact cellSum_perm hs.1 _
  · exact cellSum_perm hv.1 _
  · exact Prod.ext (cellSum_perm hs.1 _) hs.2
  · exact Prod.ext (cellSum_perm hs.1 _) hs.2
  · exact weightsOf_perm hs.1 i

/-- **C116, counterfactual, conditional and interventional probabilities**, with their rules and weights. -/
theorem C116_cdp (h : mems.Perm mems') (S : List Nat) (x : Row) (cond : Rule) (yx down up : ℚ) (classifier : Bool) (t : ℚ × ℚ) :
    cdpRf mems' S x yx down up data y minSize maxDepth N classifier = cdpRf mems S x yx down up data y minSize maxDepth N classifier ∧
    cdpRule mems' S x yx down up data y minSize maxDepth N classifier = cdpRule mems S x yx down up data y minSize maxDepth N classifier ∧
    cdpWeights mems' S x yx down up data y minSize maxDepth N classifier =
      cdpWeights mems S x yx down up data y minSize maxDepth N classifier ∧
    cdpCond mems' S x cond yx down up data y minSize maxDepth N classifier =
      cdpCond mems S x cond yx down up data y minSize maxDepth N classifier ∧
    ddpCond mems' S x cond yx t data y minSize maxDepth N classifier = ddpCond mems S x cond yx t data y minSize maxDepth N classifier ∧
    cdpIntv mems' S cond yx t data y minSize maxDepth N classifier = cdpIntv mems S cond yx t data y minSize maxDepth N classifier ∧
    ddpIntv mems' S cond yx t data y minSize maxDepth N classifier = ddpIntv mems S cond yx t data y minSize maxDepth N classifier := by
  have hS := forestRunD_perm setInsert (dirS S x) data minSize h maxDepth N Rule.init
  have hC := cellsD_perm (data := data) (minSize := minSize) (maxDepth := maxDepth) (N := N) h (dirCond S x cond)
  have hI := cellsD_perm (data := data) (minSize := minSize) (maxDepth := maxDepth) (N := N) h (dirIntv S cond)
  refine ⟨?_, ?_, ?_, ?_, ?_, ?_, ?_⟩
  · exact cellSum_perm hS.1 _
  · exact Prod.ext (cellSum_perm hS.1 _) hS.2
  · exact Prod.ext (cellSum_perm hS.1 _) (funext fun i => weightsOf_perm hS.1 i)
  · exact Prod.ext (cellSum_perm hC _) (funext fun i => weightsOf_perm hC i)
  · exact Prod.ext (cellSum_perm hC _) (funext fun i => weightsOf_perm hC i)
  · exact Prod.ext (cellSum_perm hI _) (funext fun i => weightsOf_perm hI i)
  · exact Prod.ext (cellSum_perm hI _) (funext fun i => weightsOf_perm hI i)

/-- **C116, the searches**: recorded sets, probabilities, global importances, and the lists of sufficient explanations. -/
theorem C116_search (h : mems.Perm mems') (X : Nat → Row) (yX : Nat → ℚ) (n cols : Nat) (order : List Nat) (C : List (List Nat)) (pi : ℚ)
    (minimal : Nat) (stop : Bool) (half : Nat) (classifier : Bool) (t : Nat → ℚ × ℚ) :
    importanceSdpRf (fun i S => sdpRf mems' S (X i) (yX i) data y minSize maxDepth N classifier (t i)) n cols order C pi minimal stop half =
      importanceSdpRf (fun i S => sdpRf mems S (X i) (yX i) data y minSize maxDepth N classifier (t i)) n cols order C pi minimal stop half ∧
    ∀ i, sufficientExpl (fun S => sdpRf mems' S (X i) (yX i) data y minSize maxDepth N classifier (t i)) cols order C pi minimal =
      sufficientExpl (fun S => sdpRf mems S (X i) (yX i) data y minSize maxDepth N classifier (t i)) cols order C pi minimal := by
  have e : ∀ i S, sdpRf mems' S (X i) (yX i) data y minSize maxDepth N classifier (t i) =
      sdpRf mems S (X i) (yX i) data y minSize maxDepth N classifier (t i) := fun i S => (C116_forest h S (X i) (yX i) classifier (t i)).1
  simp only [e, implies_true, and_self]

/-- Two trees whose rules bound the same column: the rule of the pair has the tighter bounds. -/
example : (sdpRule [Mem.ofTree ladderTree leafJunk, Mem.ofTree rootSplit leafJunk] [0, 2] (diag 4) 1 diag (fun _ => 1) 2 3 10 true (0, 0)).2 0 =
      (sdpRule [Mem.ofTree rootSplit leafJunk, Mem.ofTree ladderTree leafJunk] [0, 2] (diag 4) 1 diag (fun _ => 1) 2 3 10 true (0, 0)).2 0 ∧
    (sdpRule [Mem.ofTree ladderTree leafJunk, Mem.ofTree rootSplit leafJunk] [0, 2] (diag 4) 1 diag (fun _ => 1) 2 3 10 true (0, 0)).2 0 ≠
      Rule.init 0 := by decide +kernel

/-! ## With a tree limit -/

/-- The claim that the order of the trees does not matter with a tree limit either. -/
def C116_limit_claim : Prop :=
  ∀ (ts ts' : List TreeArr) (d : Nat), ts.Perm ts' → (∀ t ∈ ts, WellFormed t d) → ∀ (limit : Int) (base : Nat → ℚ) (x : Obs) (k : Nat),
    ensemblePredict ts' none (some limit) base x k = ensemblePredict ts none (some limit) base x k

/-- **False**: with a limit of one tree, the other tree is the model. -/
theorem C116_limit_false : ¬ C116_limit_claim := by
  intro h
  have := h [ladderTree, rootSplit] [rootSplit, ladderTree] 3 (.swap _ _ _) 
    (by simp only [List.mem_cons, List.not_mem_nil, or_false, forall_eq_or_imp, forall_eq]; exact ⟨⟨_, ladderTree_isTree⟩, ⟨_, rootSplit_isTree⟩⟩) 1 (fun _ => 0) (full fun _ => 4) 0
  revert this
  decide +kernel

/-- Their sum is the same in either order. -/
example : ensemblePredict [ladderTree, rootSplit] none none (fun _ => 0) (full fun _ => 4) 0 =
    ensemblePredict [rootSplit, ladderTree] none none (fun _ => 0) (full fun _ => 4) 0 := by decide +kernel

end Acv
