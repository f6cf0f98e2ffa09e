import Verif.Model.Divergent
import Verif.Spec.Divergent
import Verif.Props.Search
import Verif.Props.Cdp

/-! # C76, C77: searches of divergent and counterfactual explanations -/

namespace Acv

/-! ## The complement -/

theorem foldlM_remove : ∀ (S l : List Nat), S.Nodup → l.Nodup → (∀ a ∈ S, a ∈ l) →
    S.foldlM pyRemove l = some (l.filter fun j => decide (j ∉ S))
  | [], l, _, _, _ => by
    have : l.filter (fun j => decide (j ∉ ([] : List Nat))) = l := by
      apply List.filter_eq_self.2; intro a _; simp
    simp only [List.foldlM_nil, this]; rfl
  | a :: S, l, hS, hl, h => by
    have ha : a ∈ l := h a (by simp)
    have hnd := List.nodup_cons.1 hS
    have ih := foldlM_remove S (l.erase a) hnd.2 (hl.erase a) (by
      intro b hb
      have hne : b ≠ a := fun e => hnd.1 (e ▸ hb)
      exact (List.mem_erase_of_ne hne).2 (h b (by simp [hb])))
    simp only [List.foldlM_cons]
    have e1 : pyRemove l a = some (l.erase a) := by unfold pyRemove; rw [if_pos ha]
    rw [e1]
    change S.foldlM pyRemove (l.erase a) = _
    rw [ih, hl.erase_eq_filter, List.filter_filter]
    congr 1
    apply List.filter_congr
    intro b _
    by_cases h1 : b = a <;> by_cases h2 : b ∈ S <;> simp [h1, h2]

/-- The list the code builds by removing the columns of `S` one by one is the list of the other columns; `remove` never raises. -/
theorem sBar_eq {cols : Nat} {S : List Nat} (h : S.Nodup) (hlt : ∀ a ∈ S, a < cols) : sBar cols S = some (otherCols cols S) :=
  foldlM_remove S (List.range cols) h List.nodup_range fun a ha => List.mem_range.2 (hlt a ha)

example : sBar 4 [2, 0] = some [1, 3] ∧ sBar 4 [2, 2] = none := by decide +kernel

theorem callSpace_eq (cols : Nat) (order : List Nat) : callSpace cols order = rfSpace cols order := rfl

theorem scanRows_congr (cols : Nat) (S R : List Nat) {v v' : List ℚ} (h : v = v') (best : Nat → Best) :
    scanRows cols S R v best = scanRows cols S R v' best := by rw [h]

theorem foldl_congr_mem {α β : Type} {f g : α → β → α} : ∀ (l : List β) (a : α), (∀ a, ∀ b ∈ l, f a b = g a b) → l.foldl f a = l.foldl g a
  | [], _, _ => rfl
  | b :: l, a, h => by
    rw [List.foldl_cons, List.foldl_cons, h a b (by simp)]
    exact foldl_congr_mem l _ fun a b hb => h a b (by simp [hb])

/-- Two probabilities that agree on the candidates give the same search. -/
theorem searchLoop_congr {fin : Best → Best} {vals vals' : List Nat → List Nat → List ℚ} {cols : Nat} {pi : ℚ} {stop : Bool} {half : Nat} :
    ∀ (levels : List (List (List Nat))) (st : Batch), (∀ c ∈ levels, ∀ S ∈ c, ∀ R, vals R S = vals' R S) →
      searchLoop fin vals cols pi stop half levels st = searchLoop fin vals' cols pi stop half levels st
  | [], _, _ => rfl
  | cands :: ls, st, h => by
    have e : scanLevel fin vals cols pi cands st = scanLevel fin vals' cols pi cands st := by
      unfold scanLevel
      rw [foldl_congr_mem cands st.best fun best S hS => scanRows_congr cols S st.R (h cands (by simp) S hS st.R) best]
    unfold searchLoop
    rw [e]
    simp only [searchLoop_congr ls _ fun c hc => h c (by simp [hc])]

/-- The searches over complements are the search of `importance_sdp_rf` with the probability for the other columns. -/
theorem globalBarRf_eq {cols : Nat} {order : List Nat} {C : List (List Nat)} (h : SearchArgs cols C (rfSpace cols order))
    (p : Nat → List Nat → ℚ) (N : Nat) (pi : ℚ) (minimal : Nat) (stop : Bool) (half : Nat) :
    globalBarRf p N cols C (callSpace cols order) pi minimal stop half
      = importanceSdpRf (fun i S => p i (otherCols cols S)) N cols order C pi minimal stop half := by
  have hp := playersOk h
  have h10 := players_le_ten h
  unfold globalBarRf importanceSdpRf globalSdpRf
  change (levelsRf (searchPlayers C (rfSpace cols order)) minimal).bind _ = (levelsRf (searchPlayers C (rfSpace cols order)) minimal).map _
  have h10' : (searchPlayers C (rfSpace cols order)).length ≤ 10 := h10
  rw [levelsRf_eq _ _ (by omega)]
  have hbar : ∀ c ∈ (List.range' minimal ((searchPlayers C (rfSpace cols order)).length + 1 - minimal)).map
      (levelOf (searchPlayers C (rfSpace cols order))), ∀ S ∈ c, sBar cols S = some (otherCols cols S) := by
    intro c hc S hS
    obtain ⟨k, _, rfl⟩ := List.mem_map.1 hc
    have := candidate_nodup hp (mem_levelOf.1 hS)
    exact sBar_eq this.1 this.2
  simp only [Option.bind_some, Option.map_some]
  rw [if_pos]
  · congr 1
    apply searchLoop_congr
    intro c hc S hS R
    unfold maskVals
    beta_reduce
    rw [hbar c hc S hS]
    rfl
  · simp only [List.all_eq_true]
    intro c hc S hS
    rw [hbar c hc S hS]
    rfl

/-! ## C76 -/

/-- Shared by the two searches over complements. -/
theorem bar_reports {cols : Nat} {order : List Nat} {C : List (List Nat)} (h : SearchArgs cols C (rfSpace cols order))
    (p : Nat → List Nat → ℚ) (N : Nat) {pi : ℚ} (h0 : 0 < pi) (h1 : pi ≤ 1) (minimal : Nat) (stop : Bool) (half : Nat) :
    ∃ st, globalBarRf p N cols C (callSpace cols order) pi minimal stop half = some st ∧
      ∀ i < N, pi ≤ (st.best i).sdp → ∃ S : List Nat, (st.best i).cols = S.map (↑) ∧
        (S.length = cols → (st.best i).sdp = 1) ∧
        (S.length ≠ cols → DivergentReport (searchPlayers C (rfSpace cols order)) cols minimal (p i) pi S (st.best i).sdp) := by
  rw [globalBarRf_eq h]
  obtain ⟨st, e, hst⟩ := C29_reported_partial h (fun i S => p i (otherCols cols S)) N h0 h1 minimal stop half
  refine ⟨st, e, fun i hi hpi => ?_⟩
  obtain ⟨k, S, a1, a2, a3, _, a5, a6, a7, a8⟩ := hst i hi hpi
  exact ⟨S, a3, a6, fun hl => ⟨k, a1, a2, a5 hl, a7, a8⟩⟩

/-- **C76** (part). `importance_ddp_rf` always answers; a sample reported at `pi` or more has the columns of a set of players, and
the reported number is the probability that the decision changes when the *other* columns are fixed at their values in `x`; no
smaller explored set reaches `pi` and no explored set of that size does better. Missing: the set of all columns is reported with
probability 1 whatever it is (`C76_full_set_false`). -/
theorem C76_divergent_partial {cols : Nat} {order : List Nat} {C : List (List Nat)} (h : SearchArgs cols C (rfSpace cols order))
    (c : RfCall) (N : Nat) {pi : ℚ} (h0 : 0 < pi) (h1 : pi ≤ 1) (minimal : Nat) (stop : Bool) (half : Nat) :
    ∃ st, importanceDdpRf c N cols order C pi minimal stop half = some st ∧
      ∀ i < N, pi ≤ (st.best i).sdp → ∃ S : List Nat, (st.best i).cols = S.map (↑) ∧
        (S.length = cols → (st.best i).sdp = 1) ∧
        (S.length ≠ cols → DivergentReport (searchPlayers C (rfSpace cols order)) cols minimal
          (fun T => ddpRf c.mems T (c.X i) (c.yX i) c.data c.y c.minSize c.maxDepth c.nData c.classifier (c.t i)) pi S (st.best i).sdp) :=
  bar_reports h c.ddp N h0 h1 minimal stop half

/-- **C76** (part), `importance_cdp_rf`: the same for the probability of the target. -/
theorem C76_counterfactual_partial {cols : Nat} {order : List Nat} {C : List (List Nat)} (h : SearchArgs cols C (rfSpace cols order))
    (c : RfCall) (down up : Nat → ℚ) (N : Nat) {pi : ℚ} (h0 : 0 < pi) (h1 : pi ≤ 1) (minimal : Nat) (stop : Bool) (half : Nat) :
    ∃ st, importanceCdpRf c down up N cols order C pi minimal stop half = some st ∧
      ∀ i < N, pi ≤ (st.best i).sdp → ∃ S : List Nat, (st.best i).cols = S.map (↑) ∧
        (S.length = cols → (st.best i).sdp = 1) ∧
        (S.length ≠ cols → DivergentReport (searchPlayers C (rfSpace cols order)) cols minimal
          (fun T => cdpRf c.mems T (c.X i) (c.yX i) (down i) (up i) c.data c.y c.minSize c.maxDepth c.nData c.classifier) pi S
          (st.best i).sdp) :=
  bar_reports h (c.cdp down up) N h0 h1 minimal stop half

/-- **C76** (part), the intervention searches `importance_ddp_intv` and `importance_cdp_intv`: the columns outside the reported set
lie in their intervals of `cond`, the reported columns are free. -/
theorem C76_intv_partial {cols : Nat} {order : List Nat} {C : List (List Nat)} (h : SearchArgs cols C (rfSpace cols order))
    (c : RfCall) (cond : Nat → Rule) (N : Nat) {pi : ℚ} (h0 : 0 < pi) (h1 : pi ≤ 1) (minimal : Nat) (stop : Bool) (half : Nat) :
    (∃ st, importanceDdpIntv c cond N cols order C pi minimal stop half = some st ∧
      ∀ i < N, pi ≤ (st.best i).sdp → Reports (searchPlayers C (rfSpace cols order)) cols minimal
        (fun S => (ddpIntv c.mems S (cond i) (c.yX i) (c.t i) c.data c.y c.minSize c.maxDepth c.nData c.classifier).1) pi (st.best i)) ∧
    ∃ st, importanceCdpIntv c cond N cols order C pi minimal stop half = some st ∧
      ∀ i < N, pi ≤ (st.best i).sdp → Reports (searchPlayers C (rfSpace cols order)) cols minimal
        (fun S => (cdpIntv c.mems S (cond i) (c.yX i) (c.t i) c.data c.y c.minSize c.maxDepth c.nData c.classifier).1) pi (st.best i) :=
  ⟨C29_reported_partial h (c.ddpIn cond) N h0 h1 minimal stop half, C29_reported_partial h (c.cdpIn cond) N h0 h1 minimal stop half⟩

/-- **C76**, the other direction: with `stop = False`, a sample reported below `pi` has no explored set whose change would alter
the decision with probability `pi`. -/
theorem C76_not_found {cols : Nat} {order : List Nat} {C : List (List Nat)} (h : SearchArgs cols C (rfSpace cols order))
    (c : RfCall) (N : Nat) {pi : ℚ} (h0 : 0 < pi) (h1 : pi ≤ 1) (minimal : Nat) {half : Nat} (hhalf : 0 < half) :
    ∃ st, importanceDdpRf c N cols order C pi minimal false half = some st ∧
      ∀ i < N, (st.best i).sdp < pi → ∀ k S, minimal ≤ k → Candidate (searchPlayers C (rfSpace cols order)) k S →
        ddpRf c.mems (otherCols cols S) (c.X i) (c.yX i) c.data c.y c.minSize c.maxDepth c.nData c.classifier (c.t i) < pi := by
  unfold importanceDdpRf
  rw [globalBarRf_eq h]
  obtain ⟨st, e, hst⟩ := C29_not_found h (fun i S => c.ddp i (otherCols cols S)) N h0 h1 minimal false half hhalf
  exact ⟨st, e, fun i hi hpi k S hk hS => hst i hi hpi k S hk hS (Or.inl rfl)⟩

/-- **C76**, the global importance of `importance_ddp_rf` and `importance_cdp_rf`: fraction of the samples whose reported set
contains the column. -/
theorem C76_frequency {cols : Nat} {order : List Nat} {C : List (List Nat)} (h : SearchArgs cols C (rfSpace cols order))
    (c : RfCall) (down up : Nat → ℚ) (N : Nat) (pi : ℚ) (minimal : Nat) (stop : Bool) (half : Nat) :
    (∃ st, importanceDdpRf c N cols order C pi minimal stop half = some st ∧
      ∀ j, st.importance N j = reportedFraction st.best N pi j ∧ 0 ≤ st.importance N j ∧ st.importance N j ≤ 1) ∧
    ∃ st, importanceCdpRf c down up N cols order C pi minimal stop half = some st ∧
      ∀ j, st.importance N j = reportedFraction st.best N pi j ∧ 0 ≤ st.importance N j ∧ st.importance N j ≤ 1 := by
  unfold importanceDdpRf importanceCdpRf
  rw [globalBarRf_eq h, globalBarRf_eq h]
  exact ⟨C31_frequency_rf h _ N pi minimal stop half, C31_frequency_rf h _ N pi minimal stop half⟩

/-- **C76**, `importance_ddp_rf` treats the samples independently: a sample with the same row, output and interval gets the same
report in any batch. -/
theorem C76_independent {cols : Nat} {order : List Nat} {C : List (List Nat)} (h : SearchArgs cols C (rfSpace cols order))
    (c : RfCall) (X' : Nat → Row) (yX' : Nat → ℚ) (t' : Nat → ℚ × ℚ) (N N' : Nat) (pi : ℚ) (minimal : Nat) (stop : Bool) (half : Nat)
    {st st' : Batch} (e : importanceDdpRf c N cols order C pi minimal stop half = some st)
    (e' : importanceDdpRf { c with X := X', yX := yX', t := t' } N' cols order C pi minimal stop half = some st')
    {i i' : Nat} (hi : i < N) (hi' : i' < N') (hX : c.X i = X' i') (hy : c.yX i = yX' i') (ht : c.t i = t' i') :
    st.best i = st'.best i' := by
  unfold importanceDdpRf at e e'
  rw [globalBarRf_eq h] at e e'
  refine C30_independent_rf _ _ N N' cols order C pi minimal stop half e e' hi hi' ?_
  funext S
  simp only [RfCall.ddp, hX, hy, ht]

/-- Two columns; the tree splits on column 0 at 1. Rows: the diagonal `(i, i)`, with output 1 for the rows above 1. -/
def divCall : RfCall where
  mems := [Mem.ofTree rootSplit leafJunk]
  X := fun _ _ => 0
  yX := fun _ => 0
  data := diag
  y := fun i => if i ≤ 1 then 0 else 1
  minSize := 1
  maxDepth := 2
  nData := 10
  classifier := true
  t := fun _ => (0, 0)

-- column 0 must change for the decision to change
example : ∃ st, importanceDdpRf divCall 1 3 [] [[]] (7 / 10) 1 true 2 = some st ∧ (st.best 0).sdp = 4 / 5 ∧ (st.best 0).cols = [0] ∧
    divCall.ddp 0 [1, 2] = 4 / 5 ∧ divCall.ddp 0 [0, 2] = 0 := by
  refine ⟨_, rfl, ?_⟩; decide +kernel

example : SearchArgs 3 [[]] (rfSpace 3 []) where
  space_nodup := by decide
  space_lt := by decide
  groups_nodup := by decide
  groups_lt := by decide

/-- All background rows have the output of the sample: no change of columns alters the decision. -/
def constCall : RfCall := { divCall with y := fun _ => 0 }

/-- **C76** is false for the set of all columns: it is reported with probability 1, though no change of columns whatever
alters the decision. -/
theorem C76_full_set_false : ∃ st, importanceDdpRf constCall 1 3 [] [[]] (9 / 10) 1 false 2 = some st ∧ (st.best 0).sdp = 1 ∧
    (st.best 0).cols = [0, 1, 2] ∧
    ∀ T : List Nat, constCall.ddp 0 T = 0 := by
  refine ⟨_, rfl, by decide +kernel, by decide +kernel, ?_⟩
  intro T
  unfold RfCall.ddp
  rw [show constCall.classifier = true from rfl, (C21_is_mean_frequency _ _ _ _ _ _ _ _ _ _).2.1]
  have : ∀ l : List (List Nat), (l.map fun c => (((c.filter fun i => decide (constCall.y i ≠ constCall.yX 0)).length : ℚ) / c.length)).sum = 0 := by
    intro l
    induction l with
    | nil => rfl
    | cons a l ih =>
      rw [List.map_cons, List.sum_cons, ih]
      have : (a.filter fun i => decide (constCall.y i ≠ constCall.yX 0)) = [] := by
        apply List.filter_eq_nil_iff.2
        intro i _
        change ¬ (decide ((0 : ℚ) ≠ 0) = true)
        decide
      rw [this]; simp
  beta_reduce
  rw [this]; simp

/-! ## C77 -/

/-- **C77**, sets (part). `sufficient_cxpl_rf` always answers; for every sample it returns, each once, the inclusion-minimal explored
sets `S` such that the decision differs with probability at least `pi` when the columns of `S` *themselves* are fixed at their
values in `x`. Missing: the docstring and `importance_ddp_rf` mean the other columns (`C77_divergent_false`). -/
theorem C77_sets_partial {cols : Nat} {order : List Nat} {C : List (List Nat)} (h : SearchArgs cols C (rfSpace cols order))
    (c : RfCall) (N : Nat) (pi : ℚ) (minimal : Nat) :
    ∃ r, sufficientCxpl c N cols order C pi minimal = some r ∧ r.1.length = N ∧
      ∀ i < N, ∃ L : List (List Nat), r.1[i]? = some (L.map fun S => S.map (↑)) ∧ L.Nodup ∧
        ∀ S, S ∈ L ↔ MinimalSufficient (searchPlayers C (rfSpace cols order)) minimal
          (fun T => ddpRf c.mems T (c.X i) (c.yX i) c.data c.y c.minSize c.maxDepth c.nData c.classifier (c.t i)) pi S := by
  have h10 : (searchPlayers C (rfSpace cols order)).length ≤ 10 := players_le_ten h
  have hlev := levelsRf_eq (searchPlayers C (rfSpace cols order)) minimal (by omega)
  unfold sufficientCxpl sufficientCxplRaw
  rw [callSpace_eq, hlev]
  simp only [Option.map_some, List.map_map]
  refine ⟨_, rfl, by simp, fun i hi => ?_⟩
  obtain ⟨L, e, hnd, hmem, _⟩ := C32_all_sufficient h (c.ddp i) pi minimal
  refine ⟨L, ?_, hnd, hmem⟩
  unfold sufficientExpl at e
  change (levelsRf (searchPlayers C (rfSpace cols order)) minimal).map _ = _ at e
  rw [hlev] at e
  simp only [Option.map_some, Option.some.injEq] at e
  simp only [List.getElem?_map, List.getElem?_range hi, Option.map_some, Option.some.injEq, Function.comp]
  rw [← List.map_drop, e, List.map_map]
  rfl

/-- **C77** is false for the probabilities: one list too few, and the list at position `i` is that of sample `i + 1` with the
internal mark -1 in front. -/
theorem C77_probabilities_shifted {cols : Nat} {order : List Nat} {C : List (List Nat)} (h : SearchArgs cols C (rfSpace cols order))
    (c : RfCall) (N : Nat) (pi : ℚ) (minimal : Nat) :
    ∃ r, sufficientCxpl c N cols order C pi minimal = some r ∧ r.1.length = N ∧ r.2.length = N - 1 ∧
      ∀ i, i + 1 < N → ∃ L : List (List Nat), r.1[i + 1]? = some (L.map fun S => S.map (↑)) ∧
        r.2[i]? = some (-1 :: L.map fun T =>
          ddpRf c.mems T (c.X (i + 1)) (c.yX (i + 1)) c.data c.y c.minSize c.maxDepth c.nData c.classifier (c.t (i + 1))) := by
  have h10 : (searchPlayers C (rfSpace cols order)).length ≤ 10 := players_le_ten h
  have hlev := levelsRf_eq (searchPlayers C (rfSpace cols order)) minimal (by omega)
  unfold sufficientCxpl sufficientCxplRaw
  rw [callSpace_eq, hlev]
  simp only [Option.map_some, List.map_map]
  refine ⟨_, rfl, by simp, by simp, fun i hi => ?_⟩
  obtain ⟨L, e, hnd, hmem, _⟩ := C32_all_sufficient h (c.ddp (i + 1)) pi minimal
  unfold sufficientExpl at e
  change (levelsRf (searchPlayers C (rfSpace cols order)) minimal).map _ = _ at e
  rw [hlev] at e
  simp only [Option.map_some, Option.some.injEq] at e
  have hhead : ∀ (l : List (List Nat)) (f : List (List Int × ℚ)), f.head? = some ([-1], -1) →
      (l.foldl (fun found S => suffStep pi (c.ddp (i + 1) S) S found) f).head? = some ([-1], -1) := by
    intro l
    induction l with
    | nil => intro f hf; exact hf
    | cons S l ih =>
      intro f hf
      rw [List.foldl_cons]
      apply ih
      unfold suffStep
      split
      · split
        · exact hf
        · cases f with
          | nil => cases hf
          | cons a f => simpa using hf
      · exact hf
  have hs : (suffScan (c.ddp (i + 1)) pi ((List.range' minimal ((searchPlayers C (rfSpace cols order)).length + 1 - minimal)).map
      (levelOf (searchPlayers C (rfSpace cols order))))) = ([-1], -1) :: L.map fun S => (S.map (↑), c.ddp (i + 1) S) := by
    have h1 : (suffScan (c.ddp (i + 1)) pi ((List.range' minimal ((searchPlayers C (rfSpace cols order)).length + 1 - minimal)).map
      (levelOf (searchPlayers C (rfSpace cols order))))).head? = some ([-1], -1) := by
      unfold suffScan
      rw [foldl_levels]
      exact hhead _ _ rfl
    generalize suffScan (c.ddp (i + 1)) pi _ = f at e h1
    cases f with
    | nil => cases h1
    | cons a f =>
      simp only [List.head?_cons, Option.some.injEq] at h1
      simp only [List.drop_succ_cons, List.drop_zero] at e
      rw [h1, e]
  refine ⟨L, ?_, ?_⟩
  · simp only [List.getElem?_map, List.getElem?_range hi, Option.map_some, Option.some.injEq, Function.comp, hs]
    simp
  · rw [List.getElem?_drop, Nat.add_comm 1 i]
    simp only [List.getElem?_map, List.getElem?_range hi, Option.map_some, Option.some.injEq, Function.comp, hs, List.map_cons,
      List.map_map]
    rfl

/-- What a reader of `importance_ddp_rf` expects from the plural function: the returned sets are the inclusion-minimal sets whose
change alters the decision. -/
def C77_claim : Prop :=
  ∀ (c : RfCall) (N cols : Nat) (order : List Nat) (C : List (List Nat)) (pi : ℚ) (minimal : Nat),
    SearchArgs cols C (rfSpace cols order) → ∀ r, sufficientCxpl c N cols order C pi minimal = some r →
      ∀ i < N, ∃ L : List (List Nat), r.1[i]? = some (L.map fun S => S.map (↑)) ∧
        ∀ S, S ∈ L ↔ MinimalSufficient (searchPlayers C (rfSpace cols order)) minimal (fun S => c.ddp i (otherCols cols S)) pi S

/-- **C77** is false for the sets: in `divCall` changing column 0 alters the decision, but the function returns `{1}` and `{2}`. -/
theorem C77_divergent_false : ¬ C77_claim := by
  intro h
  have hargs : SearchArgs 3 [[]] (rfSpace 3 []) := ⟨by decide, by decide, by decide, by decide⟩
  obtain ⟨L, h1, h2⟩ := h divCall 1 3 [] [[]] (7 / 10) 1 hargs _ rfl 0 (by decide)
  have h3 : ([0] : List Nat) ∈ L := by
    rw [h2]
    refine ⟨⟨1, le_refl _, [[0]], by decide, rfl, rfl⟩, by decide +kernel, ?_⟩
    rintro k T hk ⟨co, hco, hl, rfl⟩ _ hsub
    have hp := playersOk hargs
    have hnd := candidate_nodup hp ⟨co, hco, hl, rfl⟩
    rcases hT : co.flatten with _ | ⟨a, l⟩
    · rcases co with _ | ⟨q, co⟩
      · simp at hl; omega
      · have hq := hp.ne q (hco.subset List.mem_cons_self)
        rw [List.flatten_cons] at hT
        exact absurd (List.append_eq_nil_iff.1 hT).1 hq
    · rw [hT] at hsub hnd
      have ha : a = 0 := by simpa using hsub (List.mem_cons_self)
      subst ha
      have hl' : l = [] := by
        rcases l with _ | ⟨b, l⟩
        · rfl
        · have hb : b = 0 := by simpa using hsub (List.mem_cons_of_mem _ (List.mem_cons_self))
          subst hb
          exact absurd hnd.1 (by simp)
      rw [hl']
  have h4 : ([0] : List Int) ∈ L.map fun S => S.map (((↑) : Nat → Int)) := List.mem_map.2 ⟨[0], h3, rfl⟩
  have h5 : (L.map fun S => S.map (((↑) : Nat → Int))) = [[1], [2]] := by
    have : (some (L.map fun S => S.map (((↑) : Nat → Int)))) = some [[1], [2]] := by
      rw [← h1]; decide +kernel
    exact Option.some.inj this
  rw [h5] at h4
  revert h4
  decide

-- two samples, one list of probabilities: that of the second sample, behind a -1
example : sufficientCxpl divCall 2 3 [] [[]] (7 / 10) 1 = some ([[[1], [2]], [[1], [2]]], [[-1, 4 / 5, 4 / 5]]) := by decide +kernel

end Acv
