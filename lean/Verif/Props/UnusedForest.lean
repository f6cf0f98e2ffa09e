import Verif.Props.Unused
import Verif.Props.Cdp

/-!
# C118: columns that the model does not use, estimators of the projected forest and searches
-/

namespace Acv

/-- The two decisions are the same at every column that the model uses, and neither decides at a leaf. -/
def SameDecisions (ts : List TreeArr) (dir dir' : Int → ℚ → Option Bool) : Prop :=
  ∀ f thr, (f < 0 → dir f thr = none ∧ dir' f thr = none) ∧ (0 ≤ f → UsesColumn ts f.toNat → dir' f thr = dir f thr)

theorem forest_unused {m : Nat} {ts : List TreeArr} {mems : List Mem} (hf : List.Forall₂ (TreeStored m) ts mems)
    {dir dir' : Int → ℚ → Option Bool} (hdir : SameDecisions ts dir dir') {data data' : Nat → Row} (hd : ∀ i, SameUsed ts (data i) (data' i))
    {push : List Int → Int → List Int} (hpush : ∀ l a c, c ∈ push l a ↔ c = a ∨ c ∈ l) (minSize maxDepth N : Nat) (r : Rule) :
    forestRunD push dir' data' minSize maxDepth N mems r = forestRunD push dir data minSize maxDepth N mems r := by
  refine forestRunD_agree hpush minSize maxDepth N mems r fun mem hmem => ?_
  obtain ⟨i, hi, rfl⟩ := List.getElem_of_mem hmem
  have hi' : i < ts.length := by rw [hf.length_eq]; exact hi
  have hst : TreeStored m ts[i] mems[i] := (List.forall₂_iff_get.1 hf).2 i hi' hi
  refine ⟨treeNodes ts[i], closed_stored hst, fun n hn => ?_⟩
  have h0 := hdir (mems[i].feat n) (mems[i].thr n)
  rcases lt_or_ge (mems[i].feat n) 0 with h | h
  · rw [(h0.1 h).1, (h0.1 h).2]
    exact ⟨rfl, fun h => absurd rfl h⟩
  · have hu := feat_stored (List.getElem_mem hi') hst hn h
    exact ⟨h0.2 h hu, fun _ i => hd i _ hu⟩

theorem forest_rule_unused {m : Nat} {ts : List TreeArr} {mems : List Mem} (hf : List.Forall₂ (TreeStored m) ts mems)
    {dir : Int → ℚ → Option Bool} (hneg : ∀ f thr, f < 0 → dir f thr = none) {data : Nat → Row}
    {push : List Int → Int → List Int} (hpush : ∀ l a c, c ∈ push l a ↔ c = a ∨ c ∈ l) (minSize maxDepth N : Nat) (r : Rule)
    {u : Nat} (hu : ¬ UsesColumn ts u) :
    (forestRunD push dir data minSize maxDepth N mems r).2 u = r u := by
  refine forestRunD_rule hpush minSize maxDepth N mems r fun mem hmem => ?_
  obtain ⟨i, hi, rfl⟩ := List.getElem_of_mem hmem
  have hi' : i < ts.length := by rw [hf.length_eq]; exact hi
  have hst : TreeStored m ts[i] mems[i] := (List.forall₂_iff_get.1 hf).2 i hi' hi
  refine ⟨treeNodes ts[i], closed_stored hst, fun n hn hne e => ?_⟩
  rcases lt_or_ge (mems[i].feat n) 0 with h | h
  · exact hne (hneg _ _ h)
  · exact hu (e ▸ feat_stored (List.getElem_mem hi') hst hn h)

theorem inS_neg (S : List Nat) {f : Int} (h : f < 0) : inS S f = false := by
  simp [inS, h]

theorem inS_used {ts : List TreeArr} {S S' : List Nat} (hS : SameUsedColumns ts S S') {f : Int} (hu : UsesColumn ts f.toNat) :
    inS S' f = inS S f := by
  unfold inS
  rw [decide_eq_decide.2 (hS _ hu)]

theorem dirBox_neg (cond : Rule) {f : Int} (h : f < 0) (thr : ℚ) : dirBox cond f thr = none := by
  unfold dirBox
  rw [if_neg (by omega), if_neg (by omega)]

theorem dirS_same {ts : List TreeArr} {S S' : List Nat} (hS : SameUsedColumns ts S S') {x x' : Row} (hx : SameUsed ts x x') :
    SameDecisions ts (dirS S x) (dirS S' x') := by
  intro f thr
  refine ⟨fun h => ?_, fun _ hu => ?_⟩
  · simp [dirS, inS_neg _ h]
  · simp only [dirS, inS_used hS hu, dirPoint, hx _ hu]

theorem dirCond_same {ts : List TreeArr} {S S' : List Nat} (hS : SameUsedColumns ts S S') {x x' : Row} (hx : SameUsed ts x x')
    {cond cond' : Rule} (hc : ∀ j, UsesColumn ts j → cond' j = cond j) : SameDecisions ts (dirCond S x cond) (dirCond S' x' cond') := by
  intro f thr
  refine ⟨fun h => ?_, fun _ hu => ?_⟩
  · simp [dirCond, inS_neg _ h, dirBox_neg _ h]
  · simp only [dirCond, inS_used hS hu, dirPoint, hx _ hu, dirBox, hc _ hu]

theorem dirIntv_same {ts : List TreeArr} {S S' : List Nat} (hS : SameUsedColumns ts S S')
    {cond cond' : Rule} (hc : ∀ j, UsesColumn ts j → cond' j = cond j) : SameDecisions ts (dirIntv S cond) (dirIntv S' cond') := by
  intro f thr
  refine ⟨fun h => ?_, fun _ hu => ?_⟩
  · simp [dirIntv, inS_neg _ h, dirBox_neg _ h]
  · simp only [dirIntv, inS_used hS hu, dirBox, hc _ hu]

/-! ## Estimators -/

/-- **C118, projected forest**: unused columns may be changed in the data and in the observation, and added to or removed from the set; every
probability, expectation, weight and rule stays the same. -/
theorem C118_forest {m : Nat} {ts : List TreeArr} {mems : List Mem} (hf : List.Forall₂ (TreeStored m) ts mems)
    {S S' : List Nat} (hS : SameUsedColumns ts S S') {x x' : Row} (hx : SameUsed ts x x') {data data' : Nat → Row}
    (hd : ∀ i, SameUsed ts (data i) (data' i)) (yx down up : ℚ) (y : Nat → ℚ) (minSize maxDepth N : Nat) (classifier : Bool) (t : ℚ × ℚ) (q : ℚ) :
    sdpRf mems S' x' yx data' y minSize maxDepth N classifier t = sdpRf mems S x yx data y minSize maxDepth N classifier t ∧
    ddpRf mems S' x' yx data' y minSize maxDepth N classifier t = ddpRf mems S x yx data y minSize maxDepth N classifier t ∧
    sdpRule mems S' x' yx data' y minSize maxDepth N classifier t = sdpRule mems S x yx data y minSize maxDepth N classifier t ∧
    ddpRule mems S' x' yx data' y minSize maxDepth N classifier t = ddpRule mems S x yx data y minSize maxDepth N classifier t ∧
    ruleWeights mems S' x' data' minSize maxDepth N = ruleWeights mems S x data minSize maxDepth N ∧
    ddpWeights mems S' x' yx data' y minSize maxDepth N classifier t = ddpWeights mems S x yx data y minSize maxDepth N classifier t ∧
    expRf mems S' x' data' y minSize maxDepth N = expRf mems S x data y minSize maxDepth N ∧
    cdfRf mems S' x' data' y minSize maxDepth N q = cdfRf mems S x data y minSize maxDepth N q ∧
    cdpRf mems S' x' yx down up data' y minSize maxDepth N classifier = cdpRf mems S x yx down up data y minSize maxDepth N classifier ∧
    cdpRule mems S' x' yx down up data' y minSize maxDepth N classifier = cdpRule mems S x yx down up data y minSize maxDepth N classifier ∧
    cdpWeights mems S' x' yx down up data' y minSize maxDepth N classifier =
      cdpWeights mems S x yx down up data y minSize maxDepth N classifier := by
  have hs : ∀ {push : List Int → Int → List Int}, (∀ l a c, c ∈ push l a ↔ c = a ∨ c ∈ l) → ∀ r,
      forestRun push S' x' data' minSize maxDepth N mems r = forestRun push S x data minSize maxDepth N mems r := by
    intro push hpush r
    rw [← forestRunD_dirS, ← forestRunD_dirS]
    exact forest_unused hf (dirS_same hS hx) hd hpush minSize maxDepth N r
  have hD := forest_unused hf (dirS_same hS hx) hd mem_setInsert minSize maxDepth N Rule.init
  have hw : ruleWeights mems S' x' data' minSize maxDepth N = ruleWeights mems S x data minSize maxDepth N := by
    funext i
    simp only [ruleWeights, cellsSet, hs mem_setInsert]
  simp only [sdpRf, ddpRf, sdpRule, ddpRule, hw, ddpWeights, expRf, cdfRf, cdpRf, cdpRule, cdpWeights, cellsSet, cellsVec, cellsD,
    hs mem_setInsert, hs mem_pushBack, hD, and_self]

/-- **C118, explanations under a rule**: unused columns may be changed in the data, the observation and the rule, and added to or removed from
the set. -/
theorem C118_cond {m : Nat} {ts : List TreeArr} {mems : List Mem} (hf : List.Forall₂ (TreeStored m) ts mems)
    {S S' : List Nat} (hS : SameUsedColumns ts S S') {x x' : Row} (hx : SameUsed ts x x') {data data' : Nat → Row}
    (hd : ∀ i, SameUsed ts (data i) (data' i)) {cond cond' : Rule} (hc : ∀ j, UsesColumn ts j → cond' j = cond j)
    (yx down up : ℚ) (y : Nat → ℚ) (minSize maxDepth N : Nat) (classifier : Bool) (t : ℚ × ℚ) :
    cdpCond mems S' x' cond' yx down up data' y minSize maxDepth N classifier = cdpCond mems S x cond yx down up data y minSize maxDepth N classifier ∧
    ddpCond mems S' x' cond' yx t data' y minSize maxDepth N classifier = ddpCond mems S x cond yx t data y minSize maxDepth N classifier ∧
    cdpIntv mems S' cond' yx t data' y minSize maxDepth N classifier = cdpIntv mems S cond yx t data y minSize maxDepth N classifier ∧
    ddpIntv mems S' cond' yx t data' y minSize maxDepth N classifier = ddpIntv mems S cond yx t data y minSize maxDepth N classifier := by
  have hC := forest_unused hf (dirCond_same hS hx hc) hd mem_setInsert minSize maxDepth N Rule.init
  have hI := forest_unused hf (dirIntv_same hS hc) hd mem_setInsert minSize maxDepth N Rule.init
  simp only [cdpCond, ddpCond, cdpIntv, ddpIntv, cellsD, hC, hI, and_self]

/-- **C118, rules**: a rule says nothing about an unused column. -/
theorem C118_rule {m : Nat} {ts : List TreeArr} {mems : List Mem} (hf : List.Forall₂ (TreeStored m) ts mems) {u : Nat} (hu : ¬ UsesColumn ts u)
    (S : List Nat) (x : Row) (data : Nat → Row) (yx down up : ℚ) (y : Nat → ℚ) (minSize maxDepth N : Nat) (classifier : Bool) (t : ℚ × ℚ) :
    (sdpRule mems S x yx data y minSize maxDepth N classifier t).2 u = Rule.init u ∧
    (ddpRule mems S x yx data y minSize maxDepth N classifier t).2 u = Rule.init u ∧
    (cdpRule mems S x yx down up data y minSize maxDepth N classifier).2 u = Rule.init u := by
  have hD := forest_rule_unused hf (dir := dirS S x) (fun f thr h => by simp [dirS, inS_neg _ h]) (data := data) mem_setInsert minSize maxDepth N
    Rule.init hu
  have hs := hD
  rw [forestRunD_dirS] at hs
  exact ⟨hs, hs, hD⟩

/-! ## Searches -/

theorem erase_unused {ts : List TreeArr} {co : List (List Nat)} {p : List Nat} (hp : p ∈ co) (hu : ∀ c ∈ p, ¬ UsesColumn ts c) :
    SameUsedColumns ts (co.erase p).flatten co.flatten := by
  intro c hc
  rw [((List.perm_cons_erase hp).flatten).mem_iff, List.flatten_cons, List.mem_append]
  exact ⟨fun h => h.resolve_left fun h => hu c h hc, Or.inr⟩

/-- **C118, search**: unless the search reports sets of the smallest explored size or all columns, every player of the reported set has a column
that the model uses. -/
theorem C118_search {m : Nat} {ts : List TreeArr} {mems : List Mem} (hf : List.Forall₂ (TreeStored m) ts mems)
    {cols : Nat} {order : List Nat} {C : List (List Nat)} (h : SearchArgs cols C (rfSpace cols order))
    (X : Nat → Row) (yX : Nat → ℚ) (data : Nat → Row) (y : Nat → ℚ) (minSize maxDepth nData : Nat) (classifier : Bool) (t : ℚ × ℚ)
    (N : Nat) {pi : ℚ} (h0 : 0 < pi) (h1 : pi ≤ 1) (minimal : Nat) (stop : Bool) (half : Nat) :
    ∃ st, importanceSdpRf (fun i S => sdpRf mems S (X i) (yX i) data y minSize maxDepth nData classifier t) N cols order C pi minimal stop half =
        some st ∧
      ∀ i < N, pi ≤ (st.best i).sdp → ∃ co : List (List Nat), co.Sublist (searchPlayers C (rfSpace cols order)) ∧
        (st.best i).cols = co.flatten.map (↑) ∧
        (minimal < co.length → co.flatten.length ≠ cols → ∀ p ∈ co, ∃ c ∈ p, UsesColumn ts c) := by
  obtain ⟨st, e, hst⟩ := C29_reported_partial h (fun i S => sdpRf mems S (X i) (yX i) data y minSize maxDepth nData classifier t) N h0 h1
    minimal stop half
  refine ⟨st, e, fun i hi hpi => ?_⟩
  obtain ⟨k, S, hk, ⟨co, c1, c2, rfl⟩, hcols, _, hv, _, hless, _⟩ := hst i hi hpi
  refine ⟨co, c1, hcols, fun hmin hne p hp => ?_⟩
  by_contra hno
  push Not at hno
  have hlen : (co.erase p).length = co.length - 1 := List.length_erase_of_mem hp
  have hlt := hless (co.length - 1) (co.erase p).flatten (by omega) (by omega) ⟨_, (List.erase_sublist).trans c1, hlen, rfl⟩
  have hsame := (C118_forest hf (erase_unused (ts := ts) hp hno) (x := X i) (x' := X i) (fun _ _ => rfl) (data := data) (data' := data)
    (fun _ _ _ => rfl) (yX i) 0 0 y minSize maxDepth nData classifier t 0).1
  have hval := hv hne
  simp only at hlt hval
  rw [hval, hsame] at hpi
  exact absurd hpi (not_le.2 hlt)

/-- **C118, all sufficient explanations**: a sufficient explanation with more players than the smallest explored size has no player whose
columns are all unused. -/
theorem C118_sufficient {m : Nat} {ts : List TreeArr} {mems : List Mem} (hf : List.Forall₂ (TreeStored m) ts mems)
    {cols : Nat} {order : List Nat} {C : List (List Nat)} (h : SearchArgs cols C (rfSpace cols order))
    (x : Row) (yx : ℚ) (data : Nat → Row) (y : Nat → ℚ) (minSize maxDepth nData : Nat) (classifier : Bool) (t : ℚ × ℚ) (pi : ℚ) (minimal : Nat) :
    ∃ L : List (List Nat),
      (sufficientExpl (fun S => sdpRf mems S x yx data y minSize maxDepth nData classifier t) cols order C pi minimal).map (fun l => l.map Prod.fst) =
        some (L.map fun S => S.map (↑)) ∧
      ∀ S ∈ L, ∃ co : List (List Nat), co.Sublist (searchPlayers C (rfSpace cols order)) ∧ S = co.flatten ∧
        (minimal < co.length → ∀ p ∈ co, ∃ c ∈ p, UsesColumn ts c) := by
  obtain ⟨L, e, _, hmem, _⟩ := C32_all_sufficient h (fun S => sdpRf mems S x yx data y minSize maxDepth nData classifier t) pi minimal
  refine ⟨L, by rw [e]; simp [Function.comp_def], fun S hS => ?_⟩
  obtain ⟨⟨k, hk, co, c1, c2, rfl⟩, hpi, hmin⟩ := (hmem S).1 hS
  refine ⟨co, c1, rfl, fun hlt p hp => ?_⟩
  by_contra hno
  push Not at hno
  have hlen : (co.erase p).length = co.length - 1 := List.length_erase_of_mem hp
  have hsame := (C118_forest hf (erase_unused (ts := ts) hp hno) (x := x) (x' := x) (fun _ _ => rfl) (data := data) (data' := data)
    (fun _ _ _ => rfl) yx 0 0 y minSize maxDepth nData classifier t 0).1
  have hsub : (co.erase p).flatten ⊆ co.flatten := (List.erase_sublist (a := p) (l := co)).flatten.subset
  have heq := hmin (co.length - 1) (co.erase p).flatten (by omega) ⟨_, (List.erase_sublist).trans c1, hlen, rfl⟩
    (by simp only at hpi ⊢; rw [← hsame]; exact hpi) hsub
  have hperm := (List.perm_cons_erase hp).flatten.length_eq
  rw [← heq, List.flatten_cons, List.length_append] at hperm
  have hne := List.length_pos_of_ne_nil ((playersOk h).ne p (c1.subset hp))
  omega

/-! ## Examples -/

/-- A forest of one tree that tests column 1 of three, with rows `(i, i, i)`. -/
example : List.Forall₂ (TreeStored 3) [splitOn 1 2] [Mem.ofTree (splitOn 1 2) leafJunk] ∧ ¬ UsesColumn [splitOn 1 2] 0 ∧
    SameUsedColumns [splitOn 1 2] [1] [0, 1] ∧
    (sdpRule [Mem.ofTree (splitOn 1 2) leafJunk] [1] (diag 1) 0 diag (fun i => if i ≤ 2 then 0 else 1) 1 3 6 true (0, 0)).1 = 1 ∧
    (sdpRule [Mem.ofTree (splitOn 1 2) leafJunk] [0] (diag 1) 0 diag (fun i => if i ≤ 2 then 0 else 1) 1 3 6 true (0, 0)).1 = 1 / 2 ∧
    ((sdpRule [Mem.ofTree (splitOn 1 2) leafJunk] [0, 1] (diag 1) 0 diag (fun i => if i ≤ 2 then 0 else 1) 1 3 6 true (0, 0)).2 1).2 = 2 := by
  refine ⟨.cons (splitOn_stored (by norm_num) 2) .nil, by rw [splitOn_uses]; norm_num, ?_, by decide +kernel, by decide +kernel, by decide +kernel⟩
  intro j hj
  rw [splitOn_uses] at hj
  subst hj
  simp

/-- The search finds the used column alone; all sufficient explanations are that column. -/
example : SearchArgs 3 [[]] (rfSpace 3 []) ∧
    (importanceSdpRf (fun i S => sdpRf [Mem.ofTree (splitOn 1 2) leafJunk] S (diag i) 0 diag (fun i => if i ≤ 2 then 0 else 1) 1 3 6 true (0, 0))
      2 3 [] [[]] 1 0 false 1).map (fun st => ((st.best 1).cols, (st.best 1).sdp)) = some ([1], 1) ∧
    (sufficientExpl (fun S => sdpRf [Mem.ofTree (splitOn 1 2) leafJunk] S (diag 1) 0 diag (fun i => if i ≤ 2 then 0 else 1) 1 3 6 true (0, 0))
      3 [] [[]] 1 0).map (fun l => l.map Prod.fst) = some [[1]] := by
  refine ⟨?_, by decide +kernel, by decide +kernel⟩
  constructor
  all_goals decide

/-- The claim without the exception for the smallest explored size. -/
def C118_search_claim : Prop := ∀ (m : Nat) (ts : List TreeArr) (mems : List Mem), List.Forall₂ (TreeStored m) ts mems →
  ∀ (cols : Nat) (order : List Nat) (C : List (List Nat)), SearchArgs cols C (rfSpace cols order) →
  ∀ (X : Nat → Row) (yX : Nat → ℚ) (data : Nat → Row) (y : Nat → ℚ) (minSize maxDepth nData : Nat) (classifier : Bool) (t : ℚ × ℚ)
    (N : Nat) (pi : ℚ), 0 < pi → pi ≤ 1 → ∀ (minimal : Nat) (stop : Bool) (half : Nat), ∀ st,
    importanceSdpRf (fun i S => sdpRf mems S (X i) (yX i) data y minSize maxDepth nData classifier t) N cols order C pi minimal stop half = some st →
      ∀ i < N, pi ≤ (st.best i).sdp → ∀ c : Nat, (c : Int) ∈ (st.best i).cols → UsesColumn ts c

/-- It is false: with `minimal = 1`, the default, a level that every set reaches is explained by a column that the model does not use. -/
theorem C118_search_false : ¬ C118_search_claim := by
  intro h
  have h2 := h 3 [splitOn 1 2] [Mem.ofTree (splitOn 1 2) leafJunk] (.cons (splitOn_stored (by norm_num) 2) .nil) 3 [] [[]]
    (by constructor; all_goals decide) diag (fun _ => 0) diag (fun _ => 0) 1 3 6 true (0, 0) 1 1 (by norm_num) (by norm_num) 1 false 1
  obtain ⟨st, e⟩ : ∃ st, importanceSdpRf (fun i S => sdpRf [Mem.ofTree (splitOn 1 2) leafJunk] S (diag i) 0 diag (fun _ => 0) 1 3 6 true (0, 0))
      1 3 [] [[]] 1 1 false 1 = some st := Option.isSome_iff_exists.1 (by decide +kernel)
  have hb : (importanceSdpRf (fun i S => sdpRf [Mem.ofTree (splitOn 1 2) leafJunk] S (diag i) 0 diag (fun _ => 0) 1 3 6 true (0, 0))
      1 3 [] [[]] 1 1 false 1).map (fun st => ((st.best 0).cols, (st.best 0).sdp)) = some ([2], 1) := by decide +kernel
  have h3 := h2 st e 0 (by norm_num)
  rw [e] at hb
  simp only [Option.map_some, Option.some.injEq, Prod.mk.injEq] at hb
  have := h3 (by rw [hb.2]) 2 (by rw [hb.1]; simp)
  rw [splitOn_uses] at this
  exact absurd this (by norm_num)

end Acv
