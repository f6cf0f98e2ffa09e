import Verif.Lemmas.Background
import Verif.Props.Counterfactual

/-!
# C113: the background is a sample, not a sequence

An explanation depends on the background data only through the shares of its rows: not on their order, and not on whether every row is
repeated the same number of times. `Repeats` and `Multiplied` (`Verif.Spec.Background`) say what a reordered and repeated background is.
The projected forest stops at `min_node_size` rows, a number of rows, which has to be multiplied too.
-/

namespace Acv

variable {k N N' : Nat} {σ : Nat → Nat} {data : Nat → Row} {y : Nat → ℚ} {minSize maxDepth : Nat} {mems : List Mem}

theorem cellsD_same (h : Repeats k N N' σ) (dir : Int → ℚ → Option Bool) :
    List.Forall₂ (SameRows N N' σ) (cellsD mems dir data minSize maxDepth N) (cellsD mems dir (fun j => data (σ j)) (k * minSize) maxDepth N') :=
  (forestRunD_same h maxDepth mems Rule.init).1

theorem forestRun_repeats (h : Repeats k N N' σ) (push : List Int → Int → List Int) (S : List Nat) (x : Row) :
    List.Forall₂ (SameRows N N' σ) (forestRun push S x data minSize maxDepth N mems Rule.init).1
      (forestRun push S x (fun j => data (σ j)) (k * minSize) maxDepth N' mems Rule.init).1 ∧
    (forestRun push S x (fun j => data (σ j)) (k * minSize) maxDepth N' mems Rule.init).2 =
      (forestRun push S x data minSize maxDepth N mems Rule.init).2 := by
  have := forestRunD_same (push := push) (dir := dirS S x) (data := data) (minSize := minSize) h maxDepth mems Rule.init
  rw [forestRunD_dirS, forestRunD_dirS] at this
  exact this

/-- **C113, the projected forest**: the same decision probability, the different decision probability, the mean, the distribution function
and the rule are those of the original background. -/
theorem C113_forest (h : Repeats k N N' σ) (S : List Nat) (x : Row) (yx : ℚ) (classifier : Bool) (t : ℚ × ℚ) :
    sdpRf mems S x yx (fun j => data (σ j)) (fun j => y (σ j)) (k * minSize) maxDepth N' classifier t =
      sdpRf mems S x yx data y minSize maxDepth N classifier t ∧
    ddpRf mems S x yx (fun j => data (σ j)) (fun j => y (σ j)) (k * minSize) maxDepth N' classifier t =
      ddpRf mems S x yx data y minSize maxDepth N classifier t ∧
    expRf mems S x (fun j => data (σ j)) (fun j => y (σ j)) (k * minSize) maxDepth N' = expRf mems S x data y minSize maxDepth N ∧
    (∀ q : ℚ, cdfRf mems S x (fun j => data (σ j)) (fun j => y (σ j)) (k * minSize) maxDepth N' q =
      cdfRf mems S x data y minSize maxDepth N q) ∧
    sdpRule mems S x yx (fun j => data (σ j)) (fun j => y (σ j)) (k * minSize) maxDepth N' classifier t =
      sdpRule mems S x yx data y minSize maxDepth N classifier t ∧
    ddpRule mems S x yx (fun j => data (σ j)) (fun j => y (σ j)) (k * minSize) maxDepth N' classifier t =
      ddpRule mems S x yx data y minSize maxDepth N classifier t := by
  have hs := forestRun_repeats (data := data) (minSize := minSize) (maxDepth := maxDepth) (mems := mems) h setInsert S x
  have hv := forestRun_repeats (data := data) (minSize := minSize) (maxDepth := maxDepth) (mems := mems) h pushBack S x
  refine ⟨?_, ?_, ?_, fun q => ?_, ?_, ?_⟩
  · exact cellSum_same h hs.1 fun i => ind (sameDec classifier yx t (y i))
  · exact cellSum_same h hs.1 fun i => if classifier then ind (decide (yx ≠ y i)) else 1 - ind (decide (t.1 ≤ y i)) * ind (decide (y i ≤ t.2))
  · exact cellSum_same h hs.1 y
  · exact cellSum_same h hv.1 fun i => ind (decide (y i ≤ q))
  · exact Prod.ext (cellSum_same h hs.1 fun i => ind (sameDec classifier yx t (y i))) hs.2
  · exact Prod.ext (cellSum_same h hs.1 fun i => ddpHit classifier yx t (y i)) hs.2

/-- **C113, the weights of the background rows**: a copy of a row has the weight of the row, divided by the number of copies. -/
theorem C113_weights (h : Repeats k N N' σ) (S : List Nat) (x : Row) {j : Nat} (hj : j < N') :
    ruleWeights mems S x (fun j => data (σ j)) (k * minSize) maxDepth N' j = ruleWeights mems S x data minSize maxDepth N (σ j) / k :=
  weightsOf_same h (forestRun_repeats h setInsert S x).1 hj

/-- **C113, counterfactual, conditional and interventional probabilities**: the same probability; weights divided by the number of
copies. -/
theorem C113_cdp (h : Repeats k N N' σ) (S : List Nat) (x : Row) (cond : Rule) (yx down up : ℚ) (classifier : Bool) (t : ℚ × ℚ) :
    cdpRf mems S x yx down up (fun j => data (σ j)) (fun j => y (σ j)) (k * minSize) maxDepth N' classifier =
      cdpRf mems S x yx down up data y minSize maxDepth N classifier ∧
    cdpRule mems S x yx down up (fun j => data (σ j)) (fun j => y (σ j)) (k * minSize) maxDepth N' classifier =
      cdpRule mems S x yx down up data y minSize maxDepth N classifier ∧
    ((cdpCond mems S x cond yx down up (fun j => data (σ j)) (fun j => y (σ j)) (k * minSize) maxDepth N' classifier).1 =
        (cdpCond mems S x cond yx down up data y minSize maxDepth N classifier).1 ∧
      ∀ j < N', (cdpCond mems S x cond yx down up (fun j => data (σ j)) (fun j => y (σ j)) (k * minSize) maxDepth N' classifier).2 j =
        (cdpCond mems S x cond yx down up data y minSize maxDepth N classifier).2 (σ j) / k) ∧
    ((ddpCond mems S x cond yx t (fun j => data (σ j)) (fun j => y (σ j)) (k * minSize) maxDepth N' classifier).1 =
        (ddpCond mems S x cond yx t data y minSize maxDepth N classifier).1 ∧
      ∀ j < N', (ddpCond mems S x cond yx t (fun j => data (σ j)) (fun j => y (σ j)) (k * minSize) maxDepth N' classifier).2 j =
        (ddpCond mems S x cond yx t data y minSize maxDepth N classifier).2 (σ j) / k) ∧
    ((cdpIntv mems S cond yx t (fun j => data (σ j)) (fun j => y (σ j)) (k * minSize) maxDepth N' classifier).1 =
        (cdpIntv mems S cond yx t data y minSize maxDepth N classifier).1 ∧
      ∀ j < N', (cdpIntv mems S cond yx t (fun j => data (σ j)) (fun j => y (σ j)) (k * minSize) maxDepth N' classifier).2 j =
        (cdpIntv mems S cond yx t data y minSize maxDepth N classifier).2 (σ j) / k) ∧
    ((ddpIntv mems S cond yx t (fun j => data (σ j)) (fun j => y (σ j)) (k * minSize) maxDepth N' classifier).1 =
        (ddpIntv mems S cond yx t data y minSize maxDepth N classifier).1 ∧
      ∀ j < N', (ddpIntv mems S cond yx t (fun j => data (σ j)) (fun j => y (σ j)) (k * minSize) maxDepth N' classifier).2 j =
        (ddpIntv mems S cond yx t data y minSize maxDepth N classifier).2 (σ j) / k) := by
  have hS := forestRunD_same (push := setInsert) (dir := dirS S x) (data := data) (minSize := minSize) h maxDepth mems Rule.init
  have hC := cellsD_same (data := data) (minSize := minSize) (maxDepth := maxDepth) (mems := mems) h (dirCond S x cond)
  have hI := cellsD_same (data := data) (minSize := minSize) (maxDepth := maxDepth) (mems := mems) h (dirIntv S cond)
  refine ⟨?_, ?_, ⟨?_, ?_⟩, ⟨?_, ?_⟩, ⟨?_, ?_⟩, ⟨?_, ?_⟩⟩
  · exact cellSum_same h hS.1 fun i => cdpHit classifier yx down up (y i)
  · exact Prod.ext (cellSum_same h hS.1 fun i => cdpHit classifier yx down up (y i)) hS.2
  · exact cellSum_same h hC fun i => cdpHit classifier yx down up (y i)
  · exact fun j hj => weightsOf_same h hC hj
  · exact cellSum_same h hC fun i => ddpHit classifier yx t (y i)
  · exact fun j hj => weightsOf_same h hC hj
  · exact cellSum_same h hI fun i => cdpIntvHit classifier yx t (y i)
  · exact fun j hj => weightsOf_same h hI hj
  · exact cellSum_same h hI fun i => ddpHit classifier yx t (y i)
  · exact fun j hj => weightsOf_same h hI hj

/-- **C113, the searches**: the recorded sets, their probabilities and the global importances, and the lists of sufficient explanations,
are those of the original background. `X` and `yX` are the explained samples. -/
theorem C113_search (h : Repeats k N N' σ) (X : Nat → Row) (yX : Nat → ℚ) (n cols : Nat) (order : List Nat) (C : List (List Nat)) (pi : ℚ)
    (minimal : Nat) (stop : Bool) (half : Nat) (classifier : Bool) (t : Nat → ℚ × ℚ) :
    importanceSdpRf (fun i S => sdpRf mems S (X i) (yX i) (fun j => data (σ j)) (fun j => y (σ j)) (k * minSize) maxDepth N' classifier (t i))
        n cols order C pi minimal stop half =
      importanceSdpRf (fun i S => sdpRf mems S (X i) (yX i) data y minSize maxDepth N classifier (t i)) n cols order C pi minimal stop half ∧
    ∀ i, sufficientExpl (fun S => sdpRf mems S (X i) (yX i) (fun j => data (σ j)) (fun j => y (σ j)) (k * minSize) maxDepth N' classifier
        (t i)) cols order C pi minimal =
      sufficientExpl (fun S => sdpRf mems S (X i) (yX i) data y minSize maxDepth N classifier (t i)) cols order C pi minimal := by
  have e : ∀ i S, sdpRf mems S (X i) (yX i) (fun j => data (σ j)) (fun j => y (σ j)) (k * minSize) maxDepth N' classifier (t i) =
      sdpRf mems S (X i) (yX i) data y minSize maxDepth N classifier (t i) := fun i S => (C113_forest h S (X i) (yX i) classifier (t i)).1
  simp only [e, implies_true, and_self]

/-- Ten rows, in reverse order and each twice. -/
theorem backRepeats : Repeats 2 10 20 (fun j => 9 - j / 2) := ⟨by decide, by decide, by decide⟩

/-- The square of the number of the row. -/
def squareY (i : Nat) : ℚ := i * i

example : expRf [Mem.ofTree ladderTree leafJunk, Mem.ofTree rootSplit leafJunk] [0, 2] (diag 4) diag squareY 2 3 10 = 49/2 ∧
    expRf [Mem.ofTree ladderTree leafJunk, Mem.ofTree rootSplit leafJunk] [0, 2] (diag 4) (fun j => diag (9 - j / 2))
      (fun j => squareY (9 - j / 2)) 4 3 20 = 49/2 := by decide +kernel

/-! ## The number of rows at which a walk stops -/

/-- The claim that repeating the background changes nothing, with the same `min_node_size`. -/
def C113_min_node_claim : Prop :=
  ∀ (k N N' : Nat) (σ : Nat → Nat), Repeats k N N' σ →
  ∀ (m : Nat) (ts : List TreeArr) (mems : List Mem), List.Forall₂ (TreeStored m) ts mems →
  ∀ (S : List Nat) (x : Row) (data : Nat → Row) (y : Nat → ℚ) (minSize maxDepth : Nat),
    expRf mems S x (fun j => data (σ j)) (fun j => y (σ j)) minSize maxDepth N' = expRf mems S x data y minSize maxDepth N

/-- **False**: `min_node_size` is a number of rows, not a share; a walk over twice as many rows goes further. -/
theorem C113_min_node_false : ¬ C113_min_node_claim := by
  intro h
  have := h 2 10 20 _ backRepeats 3 [ladderTree] [Mem.ofTree ladderTree leafJunk] (.cons ladderTree_stored .nil) [0, 1, 2] (diag 4) diag
    squareY 9 3
  revert this
  decide +kernel

/-! ## Leaf-based estimators -/

theorem Multiplied.ne {k : Nat} {d d' : List Row} (h : Multiplied k d d') : (k : ℚ) ≠ 0 := Nat.cast_ne_zero.2 (Nat.pos_iff_ne_zero.1 h.1)

theorem cyTerm_scaled {k : Nat} {d d' : List Row} (h : Scaled k d d') (hk : (k : ℚ) ≠ 0) (m : Nat) (r : Rect) (x : Row) (va : List Nat)
    (rest : List (List Nat)) (counter : Nat) : cyTerm m d' r x va rest counter = cyTerm m d r x va rest counter := by
  have g : ∀ c a b : ℚ, (if (k : ℚ) * b ≠ 0 then c * (k * a) / (k * b) else 0) = if b ≠ 0 then c * a / b else 0 := by
    intro c a b
    rw [mul_left_comm]
    exact guardDiv_scale hk (c * a) b
  unfold cyTerm
  simp only [h.cnt, h (fun z => sat r (maskSel rest counter).flatten z && sat r va z), h.length, Nat.cast_mul, g, mul_div_mul_left _ _ hk]

theorem normProb_scaled {c : ℚ} (hc : c ≠ 0) (own : ℚ × ℚ × ℚ) (all : List (ℚ × ℚ × ℚ)) :
    normProb (own.1, c * own.2.1, c * own.2.2) (all.map fun q => (q.1, c * q.2.1, c * q.2.2)) = normProb own all := by
  have hr : runningNorm (all.map fun q => (q.1, c * q.2.1, c * q.2.2)) = runningNorm all := by
    unfold runningNorm
    rw [List.foldl_map]
    congr 1
    funext n q
    by_cases hq : q.2.2 = 0
    · simp [hq]
    · rw [if_pos (mul_ne_zero hc hq), if_pos hq, mul_left_comm, mul_div_mul_left _ _ hc]
  unfold normProb
  simp only [hr]
  by_cases hq : runningNorm all * own.2.2 = 0
  · rw [if_neg (by rw [mul_left_comm, hq]; simp), if_neg (by rw [hq]; simp)]
  · rw [if_pos (by rw [mul_left_comm]; exact mul_ne_zero hc hq), if_pos hq, mul_left_comm, mul_assoc, mul_div_mul_left _ _ hc]

theorem normTerm_scaled {k : Nat} {d d' : List Row} (h : Scaled k d d') (hk : (k : ℚ) ≠ 0) (m : Nat) (rs : List Rect) (r : Rect) (x : Row)
    (va : List Nat) (rest : List (List Nat)) (counter : Nat) : normTerm m d' rs r x va rest counter = normTerm m d rs r x va rest counter := by
  have hp : ∀ f : Rect → ℚ × ℚ × ℚ, normProb ((f r).1, k * (f r).2.1, k * (f r).2.2) (rs.map fun q => ((f q).1, k * (f q).2.1, k * (f q).2.2)) =
      normProb (f r) (rs.map f) := by
    intro f
    have := normProb_scaled hk (f r) (rs.map f)
    rw [List.map_map] at this
    exact this
  have h1 := hp fun q => ((if sat q (maskSel rest counter).flatten x then 1 else 0 : ℚ), (cnt d q (List.range m) : ℚ), (cnt d q (maskSel rest counter).flatten : ℚ))
  have h2 := hp fun q => ((if sat q (maskSel rest counter).flatten x && sat q va x then 1 else 0 : ℚ), (cnt d q (List.range m) : ℚ),
    ((d.filter fun z => sat q (maskSel rest counter).flatten z && sat q va z).length : ℚ))
  have h3 : ∀ q, (d'.filter fun z => sat q (maskSel rest counter).flatten z && sat q va z).length =
    k * (d.filter fun z => sat q (maskSel rest counter).flatten z && sat q va z).length := fun q => h _
  unfold normTerm
  simp only [h.cnt, h3, h.length, Nat.cast_mul, mul_div_mul_left _ _ hk]
  rw [h1, h2]

/-- **C113, Shapley values and conditional expectations of a tree ensemble**: unchanged when the background is reordered and repeated. -/
theorem C113_leaf {k : Nat} {d d' : List Row} (h : Multiplied k d d') (ts : List TreeArr) (m : Nat) (C : List (List Nat)) (S : List Nat)
    (x : Row) (j o : Nat) :
    shapCy ts m d' C x j o = shapCy ts m d C x j o ∧
    shapNorm ts m d' C x j o = shapNorm ts m d C x j o ∧
    expCy ts m d' S x o = expCy ts m d S x o ∧
    expPy ts m d' S x o = expPy ts m d S x o ∧
    expCatCy ts m d' S x o = expCatCy ts m d S x o ∧
    expNormCy ts m d' S x o = expNormCy ts m d S x o := by
  have hs := h.scaled
  have hk := h.ne
  have hg : ∀ a b v : ℚ, guardDiv (k * a * v) (k * b) = guardDiv (a * v) b := by
    intro a b v; rw [mul_assoc]; exact guardDiv_scale hk _ _
  refine ⟨?_, ?_, ?_, ?_, ?_, ?_⟩
  · simp only [shapCy, cyLeafPhi, cyTerm_scaled hs hk]
  · simp only [shapNorm, normLeafPhi, normTerm_scaled hs hk]
  · simp only [expCy, hs.cnt, hs.cntCC, Nat.cast_mul, hg]
  · simp only [expPy, hs.cntCC, Nat.cast_mul, hg]
  · have h1 : ∀ r : Rect, (d'.filter fun z => eqOn S x z && sat r (List.range m) z).length =
      k * (d.filter fun z => eqOn S x z && sat r (List.range m) z).length := fun r => hs _
    have h2 : (d'.filter fun z => eqOn S x z).length = k * (d.filter fun z => eqOn S x z).length := hs _
    simp only [expCatCy, h1, h2, Nat.cast_mul, hg]
  · have hz : ∀ n : Nat, k * n = 0 ↔ n = 0 := fun n => by simp [Nat.pos_iff_ne_zero.1 h.1]
    simp only [expNormCy, expNormTree, hs.cnt, hs.cntCC, hz, Nat.cast_mul, mul_div_mul_left _ _ hk, hg]

/-- **C113, same decision probabilities of a tree ensemble**. -/
theorem C113_sdp {k : Nat} {d d' : List Row} (h : Multiplied k d d') (ts : List TreeArr) (m : Nat) (lab : Row → Nat) (y : Row → ℚ) (tX : ℚ)
    (S : List Nat) (x : Row) :
    sdpClfPy ts m lab d' S x = sdpClfPy ts m lab d S x ∧
    sdpClfCy ts m lab d' S x = sdpClfCy ts m lab d S x ∧
    sdpClfCat ts m lab d' S x = sdpClfCat ts m lab d S x ∧
    sdpRegCatCy ts m y tX d' S x = sdpRegCatCy ts m y tX d S x ∧
    sdpRegCatPy ts m y tX d' S x = sdpRegCatPy ts m y tX d S x ∧
    sdpRegPy ts m y tX d' S x = sdpRegPy ts m y tX d S x := by
  have hs := h.scaled
  have hk := h.ne
  have hg : ∀ a b v : ℚ, guardDiv (k * a * v) (k * b) = guardDiv (a * v) b := by
    intro a b v; rw [mul_assoc]; exact guardDiv_scale hk _ _
  have hg' : ∀ a b : ℚ, guardDiv (k * a) (k * b) = guardDiv a b := fun a b => guardDiv_scale hk _ _
  have hdg : ∀ p n fx v : ℚ, regDiag (k * p) (k * n) fx v = regDiag p n fx v := by
    intro p n fx v
    unfold regDiag
    by_cases hn : n = 0
    · simp [hn]
    · rw [if_pos (mul_ne_zero hk hn), if_pos hn, mul_assoc, mul_assoc, mul_div_mul_left _ _ hk, mul_left_comm (2 * fx), mul_assoc,
        mul_div_mul_left _ _ hk, ← mul_assoc]
  have hof : ∀ p n v v' : ℚ, regOff (k * p) (k * n) v v' = regOff p n v v' := by
    intro p n v v'
    unfold regOff
    by_cases hn : n = 0
    · simp [hn]
    · rw [if_pos (mul_ne_zero hk hn), if_pos hn, mul_assoc, mul_assoc, mul_div_mul_left _ _ hk, ← mul_assoc]
  have hcat : ∀ {r r' : List Row}, Scaled k r r' → ∀ fx, regCatMean ts m S x fx r' = regCatMean ts m S x fx r := by
    intro r r' hr fx
    simp only [regCatMean, hr.cntCC, hr.cntCC2, hr.length, Nat.cast_mul, hdg, hof]
  have hleaf : ∀ {r r' : List Row}, Scaled k r r' → ∀ fx, regLeafMean ts m S x fx r' = regLeafMean ts m S x fx r := by
    intro r r' hr fx
    simp only [regLeafMean, hr.cntCC, hr.cntCC2, Nat.cast_mul, hdg, hof]
  have hcy : sdpRegCatCy ts m y tX d' S x = sdpRegCatCy ts m y tX d S x := by
    simp only [sdpRegCatCy, hcat (hs.filter _), hcat ((hs.filter _).filter _)]
  refine ⟨?_, ?_, ?_, hcy, ?_, ?_⟩
  · simp only [sdpClfPy, hs.cntCC, (hs.filter _).cntCC, Nat.cast_mul, hg]
  · simp only [sdpClfCy, hs.cntCC, (hs.filter _).cntCC, Nat.cast_mul, hg, hg']
  · simp only [sdpClfCat, (hs.filter _).cntCC, ((hs.filter _).filter _).cntCC, (hs.filter _).length, ((hs.filter _).filter _).length,
      Nat.cast_mul, hg]
  · simp only [sdpRegCatPy, hcy]
  · simp only [sdpRegPy, hleaf hs, hleaf (hs.filter _)]

/-- **C113, Active Shapley values**. -/
theorem C113_active {k : Nat} {d d' : List Row} (h : Multiplied k d d') (ts : List TreeArr) (m : Nat) (C : List (List Nat)) (S N : List Nat)
    (x : Row) (j o : Nat) : activeCy ts m d' C S N x j o = activeCy ts m d C S N x j o := by
  have hs := h.scaled
  have hk := h.ne
  have hg : ∀ a b c : ℚ, npDiv (c * (k * a)) (k * b) = npDiv (c * a) b := by
    intro a b c; rw [mul_left_comm]; exact npDiv_scale hk _ _
  have hg' : ∀ a b : ℚ, npDiv (k * a) (k * b) = npDiv a b := fun a b => npDiv_scale hk _ _
  have h1 : ∀ (r : Rect) (va : List Nat) (T : List Nat), (d'.filter fun z => sat r T z && sat r va z).length =
      k * (d.filter fun z => sat r T z && sat r va z).length := fun _ _ _ => hs _
  have ht : ∀ (n : Nat) (r : Rect) (va : List Nat) (rest : List (List Nat)) (c : Nat) (v : ℚ),
      activeTerm n m d' r x N va rest c v = activeTerm n m d r x N va rest c v := by
    intro n r va rest c v
    simp only [activeTerm, hs.cnt, hs.length, h1, Nat.cast_mul, hg, hg']
  have ho : ∀ (r : Rect) (v : ℚ), activeOffTerm m d' r x N v = activeOffTerm m d r x N v := by
    intro r v
    simp only [activeOffTerm, hs.cnt, hs.length, Nat.cast_mul, hg, hg']
  simp only [activeCy, activeLeafWrites, ht, ho]

/-- **C113, the Python versions of the Shapley values**. -/
theorem C113_py {k : Nat} {d d' : List Row} (h : Multiplied k d d') (ts : List TreeArr) (m : Nat) (C : List (List Nat)) (x : Row) (j o : Nat) :
    shapPy ts m d' C x j o = shapPy ts m d C x j o ∧ shapV2 ts m d' C x j o = shapV2 ts m d C x j o := by
  have hs := h.scaled
  have hk := h.ne
  have hg : ∀ a b c : ℚ, npDiv (c * (k * a)) (k * b) = npDiv (c * a) b := by
    intro a b c; rw [mul_left_comm]; exact npDiv_scale hk _ _
  have hg' : ∀ a b : ℚ, npDiv (k * a) (k * b) = npDiv a b := fun a b => npDiv_scale hk _ _
  have ht : ∀ (n q s : Nat) (r : Rect) (S i : List Nat) (v : ℚ), pyTerm m n q s d' r x S i v = pyTerm m n q s d r x S i v := by
    intro n q s r S i v
    simp only [pyTerm, hs.cnt, hs.length, Nat.cast_mul, hg, hg']
  exact ⟨by simp only [shapPy, shapTreePy, pyLeafWrites, ht], by simp only [shapV2, v2LeafWrites, ht]⟩

/-- Four rows twice, in another order. -/
theorem backMultiplied : Multiplied 2 [fun _ => 0, fun _ => 2, fun j => j, fun j => 4 - j]
    [fun _ => 2, fun j => j, fun _ => 0, fun j => 4 - j, fun _ => 0, fun _ => 2, fun j => 4 - j, fun j => j] := by
  refine ⟨by decide, ?_⟩
  generalize (fun _ => 0 : Row) = a
  generalize (fun _ => 2 : Row) = b
  generalize (fun j => j : Row) = c
  generalize (fun j => 4 - j : Row) = e
  show [b, c, a, e, a, b, e, c].Perm [a, b, c, e, a, b, c, e]
  refine (List.perm_middle (l₁ := [b, c]) (l₂ := [e, a, b, e, c])).trans (.cons _ (.cons _ (.cons _ (.cons _ (.cons _ (.cons _ ?_))))))
  exact .swap _ _ _

example : shapCy [ladderTree] 3 [fun _ => 0, fun _ => 2, fun j => j, fun j => 4 - j] [[]] (fun _ => 2) 0 0 = 5 ∧
    shapCy [ladderTree] 3 [fun _ => 2, fun j => j, fun _ => 0, fun j => 4 - j, fun _ => 0, fun _ => 2, fun j => 4 - j, fun j => j] [[]]
      (fun _ => 2) 0 0 = 5 := by decide +kernel

/-! ## Counterfactual rules -/

/-- Training rows 0 to 9 are `(2, 4, 0)`, row 10 is `(2, 0, 0)`, row 11 is `(0, 0, 6)`; the last one has output 0, the others the wanted
output 1. -/
def twelveArgs : CfArgs where
  m := 3
  N := 12
  mems := [Mem.ofTree ladderTree leafJunk]
  data := fun i j => (if i < 10 then [2, 4, 0] else if i = 10 then [2, 0, 0] else [0, 0, 6] : List ℚ).getD j 0
  y := fun i => if i < 11 then 1 else 0
  minSize := 1
  maxDepth := 3
  classifier := true
  target := 1
  down := 0
  up := 0
  nTry := 2
  batch := 2
  maxIter := 2
  maxConv := 5

/-- The training set in another order. -/
def CfArgs.reorder (a : CfArgs) (σ : Nat → Nat) : CfArgs := { a with data := fun j => a.data (σ j), y := fun j => a.y (σ j) }

/-- The weights of the training rows in the projected leaf of `x` given `S̄`, as `CR` computes them with `compute_cdp_weights`. -/
def CfArgs.leafWeights (a : CfArgs) (sBar : List Nat) (x : Row) : Nat → ℚ :=
  (cdpWeights a.mems sBar x a.target a.down a.up a.data a.y a.minSize a.maxDepth a.N a.classifier).2

/-- The claim that the counterfactual rules of an observation, with their probabilities, do not depend on the order of the training rows,
the random numbers being the same. -/
def C113_cf_claim : Prop :=
  ∀ (a : CfArgs) (ts : List TreeArr), List.Forall₂ (TreeStored a.m) ts a.mems →
  ∀ (σ : Nat → Nat), Repeats 1 a.N a.N σ →
  ∀ (sStar sBar : List Nat) (x : Row) (accLevel pi : ℚ) (o : Nat → AnnealDraws), (∀ s, s ∈ sBar ↔ s < a.m ∧ s ∉ sStar) →
    (runLocal (a.reorder σ) sStar sBar x ((a.reorder σ).leafWeights sBar x) accLevel pi o).map (fun l => l.map fun p => (boxOf a.m p.1, p.2.1)) =
      (runLocal a sStar sBar x (a.leafWeights sBar x) accLevel pi o).map fun l => l.map fun p => (boxOf a.m p.1, p.2.1)

/-- The last two rows first. -/
def lastTwoFirst (j : Nat) : Nat := if j < 2 then j + 10 else j - 2

theorem twelve_before : (runLocal twelveArgs [0, 1] [2] (fun j => if j = 2 then 6 else 0)
    (twelveArgs.leafWeights [2] fun j => if j = 2 then 6 else 0) (1/2) (1/2) (fun _ => exploreDraws 1)).map
      (fun l => l.map fun p => (boxOf 3 p.1, p.2.1)) =
    .ok [([(1, 10000000000), (3, 10000000000), (6, 6)], 0)] := by
  decide +kernel

theorem twelve_after : (runLocal (twelveArgs.reorder lastTwoFirst) [0, 1] [2] (fun j => if j = 2 then 6 else 0)
    ((twelveArgs.reorder lastTwoFirst).leafWeights [2] fun j => if j = 2 then 6 else 0) (1/2) (1/2) (fun _ => exploreDraws 1)).map
      (fun l => l.map fun p => (boxOf 3 p.1, p.2.1)) =
    .ok [([(1, 10000000000), (-10000000000, 3), (6, 6)], 1/2)] := by
  decide +kernel

/-- **False of counterfactual rules**: if no training row with the wanted output falls in the leaf of the observation, the first ten rows
with that output are taken. With the last two rows of `twelveArgs` put first the rule has probability 1/2 instead of 0. -/
theorem C113_cf_false : ¬ C113_cf_claim := by
  intro h
  have := h twelveArgs [ladderTree] (.cons ladderTree_stored .nil) lastTwoFirst ⟨by decide, by decide, by decide⟩ [0, 1] [2]
    (fun j => if j = 2 then 6 else 0) (1/2) (1/2) (fun _ => exploreDraws 1) (by
      intro s
      simp only [twelveArgs, List.mem_cons, List.not_mem_nil, or_false]
      omega)
  rw [show twelveArgs.m = 3 from rfl, twelve_before, twelve_after] at this
  have := congrArg (fun e : Except String (List (Box × ℚ)) => match e with | .ok l => l.map Prod.snd | .error _ => []) this
  simp at this

end Acv
