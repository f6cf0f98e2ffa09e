import Verif.Spec.CrWorkflow
import Verif.Props.Counterfactual

/-! # C101: the stages of a `CR` object -/

namespace Acv

variable {X P S R G D : Type}

theorem cr_after_append (e : CrEngine X P S R G D) (h g : List (CrCall X P)) :
    CrState.after e (h ++ g) = g.foldl (fun st c => (st.call e c).1) (CrState.after e h) := by
  unfold CrState.after
  rw [List.foldl_append]

theorem mapM_zipIdx_ok {α β : Type} (f : α × Nat → Except String β) :
    ∀ (x : List α) (k : Nat) (r : List β), r.length = x.length →
      (∀ (i : Nat) xi ri, x[i]? = some xi → r[i]? = some ri → f (xi, k + i) = .ok ri) → (x.zipIdx k).mapM f = .ok r := by
  intro x
  induction x with
  | nil =>
    intro k r hl _
    rw [List.length_eq_zero_iff.1 hl]
    rfl
  | cons a x ih =>
    intro k r hl h
    cases r with
    | nil => simp at hl
    | cons b r =>
      have h0 := h 0 a b rfl rfl
      rw [Nat.add_zero] at h0
      have h1 := ih (k + 1) r (by simpa using hl) (fun i xi ri hx hr => by
        have := h (i + 1) xi ri (by simpa using hx) (by simpa using hr)
        rwa [show k + (i + 1) = k + 1 + i by omega] at this)
      rw [List.zipIdx_cons, List.mapM_cons, h0, h1]
      rfl

theorem appendLoop_zipIdx {α β : Type} (f : α × Nat → Except String (List β)) :
    ∀ (x : List α) (k : Nat) (r : List (List β)) (acc : List β), r.length = x.length →
      (∀ (i : Nat) xi ri, x[i]? = some xi → r[i]? = some ri → f (xi, k + i) = .ok ri) →
        appendLoop f (x.zipIdx k) acc = (acc ++ r.flatten, none) := by
  intro x
  induction x with
  | nil =>
    intro k r acc hl _
    rw [List.length_eq_zero_iff.1 hl]
    simp [appendLoop]
  | cons a x ih =>
    intro k r acc hl h
    cases r with
    | nil => simp at hl
    | cons b r =>
      have h0 := h 0 a b rfl rfl
      rw [Nat.add_zero] at h0
      have h1 := ih (k + 1) r (acc ++ b) (by simpa using hl) (fun i xi ri hx hr => by
        have := h (i + 1) xi ri (by simpa using hx) (by simpa using hr)
        rwa [show k + (i + 1) = k + 1 + i by omega] at this)
      rw [List.zipIdx_cons, appendLoop, h0]
      simp only
      rw [h1]
      simp

theorem pyIndex_some {α : Type} {l : List α} {i : Nat} {a : α} (h : l[i]? = some a) : pyIndex (some l) i = .ok a := by
  unfold pyIndex
  simp only [h]

theorem getElem?_of_len {α β : Type} {l : List α} {r : List β} (hl : l.length = r.length) {i : Nat} {b : β} (h : r[i]? = some b) :
    ∃ a, l[i]? = some a := by
  have := (List.getElem?_eq_some_iff.1 h).1
  exact ⟨l[i]'(by omega), List.getElem?_eq_getElem (by omega)⟩

/-- The three local calls from any state. -/
theorem local_run (e : CrEngine X P S R G D) {x : List X} {p q r : P} {ss : List S} {rr : List R} {dd : List (List D)}
    (hr : LocalResult e x p q r ss rr dd) (st : CrState X P S R G D) :
    st.call e (.localSets x p) = ({ st with sets := some ss }, none) ∧
    ({ st with sets := some ss } : CrState X P S R G D).call e (.localRules x q) = ({ st with sets := some ss, rules := some rr }, none) ∧
    ({ st with sets := some ss, rules := some rr } : CrState X P S R G D).call e (.localSampling x r) =
      ({ st with sets := some ss, rules := some rr, isolation := some r, samples := some dd.flatten }, none) := by
  refine ⟨?_, ?_, ?_⟩
  · simp only [CrState.call, hr.sets]
  · have h1 : x.zipIdx.mapM (localRuleRow e ({ st with sets := some ss } : CrState X P S R G D) q) = .ok rr := by
      refine mapM_zipIdx_ok _ x 0 rr hr.rules_len fun i xi ri hx hri => ?_
      obtain ⟨si, hs⟩ := getElem?_of_len hr.sets_len hx
      simp only [localRuleRow, Nat.zero_add, pyIndex_some hs]
      exact hr.rules i xi si ri hx hs hri
    simp only [CrState.call, h1]
  · have h1 : appendLoop (localSampleRow e ({ st with sets := some ss, rules := some rr } : CrState X P S R G D) r) x.zipIdx [] =
        ([] ++ dd.flatten, none) := by
      refine appendLoop_zipIdx _ x 0 dd [] hr.samples_len fun i xi di hx hdi => ?_
      obtain ⟨si, hs⟩ := getElem?_of_len hr.sets_len hx
      obtain ⟨ri, hri⟩ := getElem?_of_len hr.rules_len hx
      have h2 := hr.samples i xi si ri di hx hs hri hdi
      simp only [localSampleRow, Nat.zero_add, pyIndex_some hs, pyIndex_some hri]
      by_cases hn : e.noRule ri = true
      · rw [if_pos hn] at h2 ⊢
        rw [h2]
      · rw [if_neg hn] at h2 ⊢
        obtain ⟨d, hd, he⟩ := h2
        rw [he, hd]
        rfl
    simp only [CrState.call, h1, List.nil_append]

theorem local_after (e : CrEngine X P S R G D) (h : List (CrCall X P)) {x : List X} {p q r : P} {ss : List S} {rr : List R}
    {dd : List (List D)} (hr : LocalResult e x p q r ss rr dd) :
    CrState.after e (h ++ localRun x p q r) =
      { CrState.after e h with sets := some ss, rules := some rr, isolation := some r, samples := some dd.flatten } := by
  obtain ⟨h1, h2, h3⟩ := local_run e hr (CrState.after e h)
  rw [cr_after_append, localRun, List.foldl_cons, List.foldl_cons, List.foldl_cons, List.foldl_nil, h1, h2, h3]

/-- **C101, local stages.** After any sequence of calls, with exceptions or not, the documented sequence on the observations `x` raises
nothing and leaves the sets, the rules and the samples of `x`, each rule computed from its own observation and its own set. -/
theorem C101_local (e : CrEngine X P S R G D) (h : List (CrCall X P)) {x : List X} {p q r : P} {ss : List S} {rr : List R}
    {dd : List (List D)} (hr : LocalResult e x p q r ss rr dd) :
    (CrState.after e (h ++ localRun x p q r)).sets = some ss ∧ (CrState.after e (h ++ localRun x p q r)).rules = some rr ∧
    (CrState.after e (h ++ localRun x p q r)).samples = some dd.flatten ∧
    crRaised e h (.localSets x p) = none ∧ crRaised e (h ++ [.localSets x p]) (.localRules x q) = none ∧
    crRaised e (h ++ [.localSets x p, .localRules x q]) (.localSampling x r) = none := by
  obtain ⟨h1, h2, h3⟩ := local_run e hr (CrState.after e h)
  have e3 := local_after e h hr
  refine ⟨by rw [e3], by rw [e3], by rw [e3], by rw [crRaised, h1], ?_, ?_⟩
  · rw [crRaised, cr_after_append, List.foldl_cons, List.foldl_nil, h1, h2]
  · rw [crRaised, cr_after_append, List.foldl_cons, List.foldl_cons, List.foldl_nil, h1, h2, h3]

theorem mapM_zipIdx_inv {α β : Type} (f : α × Nat → Except String β) :
    ∀ (x : List α) (k : Nat) (r : List β), (x.zipIdx k).mapM f = .ok r → r.length = x.length ∧
      ∀ (i : Nat) xi ri, x[i]? = some xi → r[i]? = some ri → f (xi, k + i) = .ok ri := by
  intro x
  induction x with
  | nil =>
    intro k r h
    cases h
    exact ⟨rfl, fun i xi ri hx => by simp at hx⟩
  | cons a x ih =>
    intro k r h
    rw [List.zipIdx_cons, List.mapM_cons] at h
    cases ha : f (a, k) with
    | error e => rw [ha] at h; cases h
    | ok b =>
      cases hm : (x.zipIdx (k + 1)).mapM f with
      | error e => rw [ha, hm] at h; cases h
      | ok t =>
        rw [ha, hm] at h
        cases h
        obtain ⟨h1, h2⟩ := ih (k + 1) t hm
        refine ⟨by simp [h1], fun i xi ri hx hr => ?_⟩
        cases i with
        | zero =>
          rw [List.getElem?_cons_zero, Option.some_inj] at hx hr
          rw [← hx, ← hr, Nat.add_zero, ha]
        | succ i =>
          rw [show k + (i + 1) = k + 1 + i by omega]
          exact h2 i xi ri (by simpa using hx) (by simpa using hr)

theorem appendLoop_zipIdx_inv {α β : Type} (f : α × Nat → Except String (List β)) :
    ∀ (x : List α) (k : Nat) (acc : List β), (appendLoop f (x.zipIdx k) acc).2 = none → ∃ r : List (List β), r.length = x.length ∧
      ∀ (i : Nat) xi ri, x[i]? = some xi → r[i]? = some ri → f (xi, k + i) = .ok ri := by
  intro x
  induction x with
  | nil =>
    intro k acc h
    exact ⟨[], rfl, fun i xi ri hx => by simp at hx⟩
  | cons a x ih =>
    intro k acc h
    rw [List.zipIdx_cons, appendLoop] at h
    cases ha : f (a, k) with
    | error e => rw [ha] at h; cases h
    | ok b =>
      rw [ha] at h
      obtain ⟨t, h1, h2⟩ := ih (k + 1) (acc ++ b) h
      refine ⟨b :: t, by simp [h1], fun i xi ri hx hr => ?_⟩
      cases i with
      | zero =>
        rw [List.getElem?_cons_zero, Option.some_inj] at hx hr
        rw [← hx, ← hr, Nat.add_zero, ha]
      | succ i =>
        rw [show k + (i + 1) = k + 1 + i by omega]
        exact h2 i xi ri (by simpa using hx) (by simpa using hr)

/-- A local sequence that raises nothing, after any history, leaves a `LocalResult`. -/
theorem localResult_of_quiet (e : CrEngine X P S R G D) (hlen : ∀ x p ss, e.localSets x p = .ok ss → ss.length = x.length)
    (h : List (CrCall X P)) {x : List X} {p q r : P} (h1 : crRaised e h (.localSets x p) = none)
    (h2 : crRaised e (h ++ [.localSets x p]) (.localRules x q) = none)
    (h3 : crRaised e (h ++ [.localSets x p, .localRules x q]) (.localSampling x r) = none) :
    ∃ ss rr dd, LocalResult e x p q r ss rr dd := by
  cases hs : e.localSets x p with
  | error err => simp only [crRaised, CrState.call, hs] at h1; cases h1
  | ok ss =>
    have e1 : (CrState.after e h).call e (.localSets x p) = ({ CrState.after e h with sets := some ss }, none) := by
      simp only [CrState.call, hs]
    rw [crRaised, cr_after_append, List.foldl_cons, List.foldl_nil, e1] at h2
    rw [crRaised, cr_after_append, List.foldl_cons, List.foldl_cons, List.foldl_nil, e1] at h3
    cases hm : x.zipIdx.mapM (localRuleRow e ({ CrState.after e h with sets := some ss } : CrState X P S R G D) q) with
    | error err => simp only [CrState.call, hm] at h2; cases h2
    | ok rr =>
      obtain ⟨hl, hrule⟩ := mapM_zipIdx_inv _ x 0 rr hm
      have h3' : (({ CrState.after e h with sets := some ss, rules := some rr } : CrState X P S R G D).call e (.localSampling x r)).2 =
          none := by
        simpa only [CrState.call, hm] using h3
      simp only [CrState.call] at h3'
      obtain ⟨dd, hd, hsam⟩ := appendLoop_zipIdx_inv _ x 0 [] h3'
      have hsl := hlen x p ss hs
      refine ⟨ss, rr, dd, hs, hsl, hl, hd, fun i xi si ri hx hsi hri => ?_, fun i xi si ri di hx hsi hri hdi => ?_⟩
      · have := hrule i xi ri hx hri
        simpa only [localRuleRow, Nat.zero_add, pyIndex_some hsi] using this
      · have := hsam i xi di hx hdi
        simp only [localSampleRow, Nat.zero_add, pyIndex_some hsi, pyIndex_some hri] at this
        by_cases hn : e.noRule ri = true
        · rw [if_pos hn] at this ⊢
          cases this
          rfl
        · rw [if_neg hn] at this ⊢
          cases hd' : e.localSample r xi r i si ri with
          | error err => rw [hd'] at this; cases this
          | ok d =>
            rw [hd'] at this
            cases this
            exact ⟨d, rfl, rfl⟩

/-- **C101, local stages and histories**: if the documented sequence raises nothing on a new object, it raises nothing after any sequence of
calls, and leaves the same sets, rules and samples. -/
theorem C101_local_history (e : CrEngine X P S R G D) (hlen : ∀ x p ss, e.localSets x p = .ok ss → ss.length = x.length)
    {x : List X} {p q r : P} (h1 : crRaised e [] (.localSets x p) = none) (h2 : crRaised e [.localSets x p] (.localRules x q) = none)
    (h3 : crRaised e [.localSets x p, .localRules x q] (.localSampling x r) = none) (h : List (CrCall X P)) :
    (CrState.after e (h ++ localRun x p q r)).sets = (CrState.after e (localRun x p q r)).sets ∧
    (CrState.after e (h ++ localRun x p q r)).rules = (CrState.after e (localRun x p q r)).rules ∧
    (CrState.after e (h ++ localRun x p q r)).samples = (CrState.after e (localRun x p q r)).samples ∧
    crRaised e h (.localSets x p) = none ∧ crRaised e (h ++ [.localSets x p]) (.localRules x q) = none ∧
    crRaised e (h ++ [.localSets x p, .localRules x q]) (.localSampling x r) = none := by
  obtain ⟨ss, rr, dd, hr⟩ := localResult_of_quiet e hlen [] h1 h2 h3
  obtain ⟨a1, a2, a3, a4, a5, a6⟩ := C101_local e h hr
  obtain ⟨b1, b2, b3, _⟩ := C101_local e [] hr
  rw [List.nil_append] at b1 b2 b3
  exact ⟨a1.trans b1.symm, a2.trans b2.symm, a3.trans b3.symm, a4, a5, a6⟩

/-- The three regional calls from any state. -/
theorem regional_run (e : CrEngine X P S R G D) {x : List X} {g p q : P} {gs : List G} {ss : List S} {rr : List R}
    (hr : RegionalResult e x g p q gs ss rr) (st : CrState X P S R G D) :
    st.call e (.sufficientRules x g) = ({ st with xRules := some x, regions := some gs }, none) ∧
    ({ st with xRules := some x, regions := some gs } : CrState X P S R G D).call e (.regionalSets p) =
      ({ st with xRules := some x, regions := some gs, targets := some p, regionalSets := some ss }, none) ∧
    ({ st with xRules := some x, regions := some gs, targets := some p, regionalSets := some ss } : CrState X P S R G D).call e
      (.regionalRules q) =
      ({ st with xRules := some x, regions := some gs, targets := some p, regionalSets := some ss, regionalRules := some rr }, none) := by
  refine ⟨?_, ?_, ?_⟩
  · simp only [CrState.call, hr.regions]
  · simp only [CrState.call, hr.sets]
  · have h1 : x.zipIdx.mapM (regionalRuleRow e ({ st with xRules := some x, regions := some gs, targets := some p, regionalSets := some ss } :
        CrState X P S R G D) p q) = .ok rr := by
      refine mapM_zipIdx_ok _ x 0 rr hr.rules_len fun i xi ri hx hri => ?_
      obtain ⟨si, hs⟩ := getElem?_of_len hr.sets_len hx
      obtain ⟨gi, hg⟩ := getElem?_of_len hr.regions_len hx
      simp only [regionalRuleRow, Nat.zero_add, pyIndex_some hs, pyIndex_some hg]
      exact hr.rules i xi gi si ri hx hg hs hri
    simp only [CrState.call, h1]

theorem regional_after (e : CrEngine X P S R G D) (h : List (CrCall X P)) {x : List X} {g p q : P} {gs : List G} {ss : List S}
    {rr : List R} (hr : RegionalResult e x g p q gs ss rr) :
    CrState.after e (h ++ regionalRun x g p q) = { CrState.after e h with
      xRules := some x, regions := some gs, targets := some p, regionalSets := some ss, regionalRules := some rr } := by
  obtain ⟨h1, h2, h3⟩ := regional_run e hr (CrState.after e h)
  rw [cr_after_append, regionalRun, List.foldl_cons, List.foldl_cons, List.foldl_cons, List.foldl_nil, h1, h2, h3]

/-- **C101, regional stages before the sampling.** The same after any sequence of calls. -/
theorem C101_regional (e : CrEngine X P S R G D) (h : List (CrCall X P)) {x : List X} {g p q : P} {gs : List G} {ss : List S}
    {rr : List R} (hr : RegionalResult e x g p q gs ss rr) :
    (CrState.after e (h ++ regionalRun x g p q)).regions = some gs ∧
    (CrState.after e (h ++ regionalRun x g p q)).regionalSets = some ss ∧
    (CrState.after e (h ++ regionalRun x g p q)).regionalRules = some rr ∧
    crRaised e h (.sufficientRules x g) = none ∧ crRaised e (h ++ [.sufficientRules x g]) (.regionalSets p) = none ∧
    crRaised e (h ++ [.sufficientRules x g, .regionalSets p]) (.regionalRules q) = none := by
  obtain ⟨h1, h2, h3⟩ := regional_run e hr (CrState.after e h)
  have e3 := regional_after e h hr
  refine ⟨by rw [e3], by rw [e3], by rw [e3], by rw [crRaised, h1], ?_, ?_⟩
  · rw [crRaised, cr_after_append, List.foldl_cons, List.foldl_nil, h1, h2]
  · rw [crRaised, cr_after_append, List.foldl_cons, List.foldl_cons, List.foldl_nil, h1, h2, h3]

/-- A regional sequence that raises nothing leaves a `RegionalResult`. -/
theorem regionalResult_of_quiet (e : CrEngine X P S R G D) (hg : ∀ x p gs, e.regions x p = .ok gs → gs.length = x.length)
    (hlen : ∀ x gs p ss, e.regionalSets x gs p = .ok ss → ss.length = x.length)
    (h : List (CrCall X P)) {x : List X} {g p q : P} (h1 : crRaised e h (.sufficientRules x g) = none)
    (h2 : crRaised e (h ++ [.sufficientRules x g]) (.regionalSets p) = none)
    (h3 : crRaised e (h ++ [.sufficientRules x g, .regionalSets p]) (.regionalRules q) = none) :
    ∃ gs ss rr, RegionalResult e x g p q gs ss rr := by
  cases hs : e.regions x g with
  | error err => simp only [crRaised, CrState.call, hs] at h1; cases h1
  | ok gs =>
    have e1 : (CrState.after e h).call e (.sufficientRules x g) = ({ CrState.after e h with xRules := some x, regions := some gs }, none) := by
      simp only [CrState.call, hs]
    rw [crRaised, cr_after_append, List.foldl_cons, List.foldl_nil, e1] at h2
    rw [crRaised, cr_after_append, List.foldl_cons, List.foldl_cons, List.foldl_nil, e1] at h3
    cases hm : e.regionalSets x gs p with
    | error err => simp only [CrState.call, hm] at h2; cases h2
    | ok ss =>
      have e2 : ({ CrState.after e h with xRules := some x, regions := some gs } : CrState X P S R G D).call e (.regionalSets p) =
          ({ CrState.after e h with xRules := some x, regions := some gs, targets := some p, regionalSets := some ss }, none) := by
        simp only [CrState.call, hm]
      rw [e2] at h3
      cases hq : x.zipIdx.mapM (regionalRuleRow e
          ({ CrState.after e h with xRules := some x, regions := some gs, targets := some p, regionalSets := some ss } :
            CrState X P S R G D) p q) with
      | error err => simp only [CrState.call, hq] at h3; cases h3
      | ok rr =>
        obtain ⟨hl, hrule⟩ := mapM_zipIdx_inv _ x 0 rr hq
        refine ⟨gs, ss, rr, hs, hg x g gs hs, hm, hlen x gs p ss hm, hl, fun i xi gi si ri hx hgi hsi hri => ?_⟩
        have := hrule i xi ri hx hri
        simpa only [regionalRuleRow, Nat.zero_add, pyIndex_some hsi, pyIndex_some hgi] using this

/-! ## The isolation forest -/

theorem call_isolation (e : CrEngine X P S R G D) (st : CrState X P S R G D) (c : CrCall X P) :
    (st.call e c).1.isolation = match c with | .localSampling _ f => some f | _ => st.isolation := by
  cases c with
  | localSets x p => simp only [CrState.call]; split <;> rfl
  | localRules x p => simp only [CrState.call]; split <;> rfl
  | localSampling x p => rfl
  | sufficientRules x p => simp only [CrState.call]; split <;> rfl
  | regionalSets p =>
    simp only [CrState.call]
    split
    · split <;> rfl
    · rfl
    · split <;> rfl
  | regionalRules p =>
    simp only [CrState.call]
    split
    · split <;> rfl
    · rfl
  | regionalSampling p => simp only [CrState.call]; split <;> rfl

theorem isolation_keep (e : CrEngine X P S R G D) : ∀ (g : List (CrCall X P)) (st : CrState X P S R G D), NoLocalSampling g →
    (g.foldl (fun st c => (st.call e c).1) st).isolation = st.isolation := by
  intro g
  induction g with
  | nil => intro st _; rfl
  | cons c g ih =>
    intro st hg
    rw [List.foldl_cons, ih _ (fun x f hm => hg x f (List.mem_cons_of_mem _ hm)), call_isolation]
    cases c with
    | localSampling x f => exact absurd List.mem_cons_self (hg x f)
    | _ => rfl

theorem isolation_last (e : CrEngine X P S R G D) {h : List (CrCall X P)} {f : P} (hl : LastLocalSampling h f) :
    (CrState.after e h).isolation = some f := by
  obtain ⟨before, x, later, rfl, hn⟩ := hl
  rw [cr_after_append, List.foldl_cons, isolation_keep e later _ hn, call_isolation]

theorem isolation_none (e : CrEngine X P S R G D) {h : List (CrCall X P)} (hn : NoLocalSampling h) :
    (CrState.after e h).isolation = none := by
  unfold CrState.after
  rw [isolation_keep e h _ hn]

theorem regionalLoop_ok (e : CrEngine X P S R G D) (st : CrState X P S R G D) (p : P) :
    ∀ (l : List Nat) (dd : Nat → List D) (acc : List D),
      (∀ i ∈ l, ∃ zs, regionalSampleRow e st p i = .ok zs ∧
        ∀ acc', appendLoop (fun z => regionalSampleTest e st p z.1 z.2.1 z.2.2) zs acc' = (acc' ++ dd i, none)) →
      regionalLoop e st p l acc = (acc ++ l.flatMap dd, none) := by
  intro l
  induction l with
  | nil => intro dd acc _; simp [regionalLoop]
  | cons i l ih =>
    intro dd acc h
    obtain ⟨zs, h1, h2⟩ := h i List.mem_cons_self
    simp only [regionalLoop, h1, h2]
    rw [ih dd _ fun j hj => h j (List.mem_cons_of_mem _ hj)]
    simp

theorem appendLoop_map {α β γ : Type} (f : β → Except String (List γ)) (g : α → β) : ∀ (l : List α) (acc : List γ),
    appendLoop f (l.map g) acc = appendLoop (fun a => f (g a)) l acc := by
  intro l
  induction l with
  | nil => intro acc; rfl
  | cons a l ih =>
    intro acc
    rw [List.map_cons, appendLoop, appendLoop]
    cases f (g a) with
    | error e => rfl
    | ok d => exact ih _

theorem flatMap_range_getD {γ : Type} (dd : List (List γ)) : ((List.range dd.length).flatMap fun i => dd.getD i []) = dd.flatten := by
  induction dd with
  | nil => rfl
  | cons a l ih =>
    rw [List.length_cons, List.range_succ_eq_map, List.flatMap_cons, List.flatMap_map, List.flatten_cons, ← ih]
    rfl

theorem flatten_single {γ : Type} (l : List γ) : (l.map fun d => [d]).flatten = l := by
  induction l with
  | nil => rfl
  | cons a l ih => rw [List.map_cons, List.flatten_cons, ih]; rfl

/-- **C101, regional samples.** If the object has at some time sampled local counterfactuals, the regional sampling after the regional
sequence raises nothing and leaves the samples of the test rows of each region, scored by the isolation forest of the last local sampling. -/
theorem C101_regional_samples (e : CrEngine X P S R G D) {h : List (CrCall X P)} {f : P} (hf : LastLocalSampling h f) {x : List X}
    {g p q r : P} {gs : List G} {ss : List S} {rr : List R} {dd : List (List D)} (hr : RegionalResult e x g p q gs ss rr)
    (hd : RegionalSamples e f r gs ss rr dd) :
    (CrState.after e (h ++ regionalRun x g p q ++ [.regionalSampling r])).regionalSamples = some dd.flatten ∧
    crRaised e (h ++ regionalRun x g p q) (.regionalSampling r) = none := by
  have e3 := regional_after e h hr
  have hiso := isolation_last e hf
  have key : regionalLoop e (CrState.after e (h ++ regionalRun x g p q)) r (List.range x.length) [] = ([] ++ dd.flatten, none) := by
    rw [← flatMap_range_getD, hd.len, hr.rules_len]
    refine regionalLoop_ok e _ r _ (fun i => dd.getD i []) [] fun i hi => ?_
    have hi' := List.mem_range.1 hi
    obtain ⟨gi, hg⟩ : ∃ a, gs[i]? = some a := ⟨gs[i]'(by rw [hr.regions_len]; exact hi'), List.getElem?_eq_getElem _⟩
    obtain ⟨si, hs⟩ : ∃ a, ss[i]? = some a := ⟨ss[i]'(by rw [hr.sets_len]; exact hi'), List.getElem?_eq_getElem _⟩
    obtain ⟨ri, hri⟩ : ∃ a, rr[i]? = some a := ⟨rr[i]'(by rw [hr.rules_len]; exact hi'), List.getElem?_eq_getElem _⟩
    obtain ⟨di, hdi⟩ : ∃ a, dd[i]? = some a := ⟨dd[i]'(by rw [hd.len, hr.rules_len]; exact hi'), List.getElem?_eq_getElem _⟩
    have hget : dd.getD i [] = di := by rw [List.getD_eq_getElem?_getD, hdi]; rfl
    simp only [hget]
    rw [e3]
    simp only [regionalSampleRow, pyIndex_some hri]
    by_cases hn : e.noRule ri = true
    · rw [if_pos hn, hd.none i ri di hri hdi hn]
      exact ⟨[], rfl, fun acc' => by simp [appendLoop]⟩
    · have hn' : e.noRule ri = false := by simpa using hn
      rw [if_neg hn]
      simp only [pyIndex_some hg]
      refine ⟨_, rfl, fun acc' => ?_⟩
      rw [appendLoop_map]
      have h4 := appendLoop_zipIdx (fun z : X × Nat => regionalSampleTest e (CrState.after e (h ++ regionalRun x g p q)) r i ri z)
        (e.tests r gi) 0 (di.map fun d => [d]) acc' (by rw [List.length_map]; exact hd.rows i gi ri di hg hri hdi hn') (by
          intro k z dl hz hdl
          rw [List.getElem?_map, Option.map_eq_some_iff] at hdl
          obtain ⟨d, hd1, rfl⟩ := hdl
          rw [e3]
          simp only [regionalSampleTest, pyIndex_some hs, hiso, Nat.zero_add]
          rw [hd.samples i gi si ri di k z d hg hs hri hdi hn' hz hd1]
          rfl)
      rw [e3] at h4
      rw [h4]
      rw [flatten_single]
  constructor
  · rw [cr_after_append (h := h ++ regionalRun x g p q), List.foldl_cons, List.foldl_nil]
    have hx : (CrState.after e (h ++ regionalRun x g p q)).xRules = some x := by rw [e3]
    have ht : (CrState.after e (h ++ regionalRun x g p q)).targets = some p := by rw [e3]
    simp only [CrState.call, hx, ht, key, List.nil_append]
  · have hx : (CrState.after e (h ++ regionalRun x g p q)).xRules = some x := by rw [e3]
    have ht : (CrState.after e (h ++ regionalRun x g p q)).targets = some p := by rw [e3]
    simp only [crRaised, CrState.call, hx, ht, key]

/-- Without isolation forest the loop stops at the first test row it has to sample. -/
theorem regionalLoop_no_isolation (e : CrEngine X P S R G D) (st : CrState X P S R G D) (p : P) (hi : st.isolation = none) :
    ∀ (l : List Nat) (zs : Nat → List (Nat × R × (X × Nat))) (acc : List D),
      (∀ i ∈ l, regionalSampleRow e st p i = .ok (zs i) ∧ ∀ z ∈ zs i, ∃ s, pyIndex st.regionalSets z.1 = .ok s) →
      (regionalLoop e st p l acc).2 = if ∃ i ∈ l, zs i ≠ [] then some "AttributeError" else none := by
  intro l
  induction l with
  | nil => intro zs acc _; simp [regionalLoop]
  | cons i l ih =>
    intro zs acc h
    obtain ⟨h1, h2⟩ := h i List.mem_cons_self
    simp only [regionalLoop, h1]
    cases hz : zs i with
    | nil =>
      simp only [appendLoop]
      rw [ih zs acc fun j hj => h j (List.mem_cons_of_mem _ hj)]
      simp [hz]
    | cons z t =>
      obtain ⟨s, hs⟩ := h2 z (by rw [hz]; exact List.mem_cons_self)
      have h3 : appendLoop (fun z => regionalSampleTest e st p z.1 z.2.1 z.2.2) (z :: t) acc = (acc, some "AttributeError") := by
        simp only [appendLoop, regionalSampleTest, hs, hi]
      rw [h3, if_pos ⟨i, List.mem_cons_self, by rw [hz]; simp⟩]

/-- **C101 is false of the regional sampling on its own**: as long as the object has sampled no local counterfactual there is no isolation
forest, and `run_sampling_regional_counterfactuals` raises `AttributeError` exactly when some region with a rule has a test row. -/
theorem C101_regional_needs_local (e : CrEngine X P S R G D) {h : List (CrCall X P)} (hn : NoLocalSampling h) {x : List X}
    {g p q r : P} {gs : List G} {ss : List S} {rr : List R} (hr : RegionalResult e x g p q gs ss rr) :
    (crRaised e (h ++ regionalRun x g p q) (.regionalSampling r) = some "AttributeError" ↔
      ∃ (i : Nat) (gi : G) (ri : R), gs[i]? = some gi ∧ rr[i]? = some ri ∧ e.noRule ri = false ∧ e.tests r gi ≠ []) ∧
    (crRaised e (h ++ regionalRun x g p q) (.regionalSampling r) = none ∨
      crRaised e (h ++ regionalRun x g p q) (.regionalSampling r) = some "AttributeError") := by
  classical
  have e3 := regional_after e h hr
  have hiso : (CrState.after e (h ++ regionalRun x g p q)).isolation = none := by rw [e3]; exact isolation_none e hn
  have hx : (CrState.after e (h ++ regionalRun x g p q)).xRules = some x := by rw [e3]
  have ht : (CrState.after e (h ++ regionalRun x g p q)).targets = some p := by rw [e3]
  let zs : Nat → List (Nat × R × (X × Nat)) := fun i =>
    match gs[i]?, rr[i]? with
    | some gi, some ri => if e.noRule ri then [] else (e.tests r gi).zipIdx.map fun z => (i, ri, z)
    | _, _ => []
  have key := regionalLoop_no_isolation e (CrState.after e (h ++ regionalRun x g p q)) r hiso (List.range x.length) zs [] (by
    intro i hi
    have hi' := List.mem_range.1 hi
    obtain ⟨gi, hg⟩ : ∃ a, gs[i]? = some a := ⟨gs[i]'(by rw [hr.regions_len]; exact hi'), List.getElem?_eq_getElem _⟩
    obtain ⟨si, hs⟩ : ∃ a, ss[i]? = some a := ⟨ss[i]'(by rw [hr.sets_len]; exact hi'), List.getElem?_eq_getElem _⟩
    obtain ⟨ri, hri⟩ : ∃ a, rr[i]? = some a := ⟨rr[i]'(by rw [hr.rules_len]; exact hi'), List.getElem?_eq_getElem _⟩
    have hz : zs i = if e.noRule ri then [] else (e.tests r gi).zipIdx.map fun z => (i, ri, z) := by
      simp only [zs, hg, hri]
    rw [hz, e3]
    simp only [regionalSampleRow, pyIndex_some hri]
    by_cases hnr : e.noRule ri = true
    · rw [if_pos hnr, if_pos hnr]
      exact ⟨rfl, fun z hz => by simp at hz⟩
    · rw [if_neg hnr, if_neg hnr]
      simp only [pyIndex_some hg]
      refine ⟨trivial, fun z hz => ?_⟩
      obtain ⟨a, _, rfl⟩ := List.mem_map.1 hz
      exact ⟨si, pyIndex_some hs⟩)
  have hcall : crRaised e (h ++ regionalRun x g p q) (.regionalSampling r) =
      if ∃ i ∈ List.range x.length, zs i ≠ [] then some "AttributeError" else none := by
    rw [← key]
    simp only [crRaised, CrState.call, hx, ht]
  rw [hcall]
  constructor
  · have hiff : (∃ i ∈ List.range x.length, zs i ≠ []) ↔
        ∃ (i : Nat) (gi : G) (ri : R), gs[i]? = some gi ∧ rr[i]? = some ri ∧ e.noRule ri = false ∧ e.tests r gi ≠ [] := by
      constructor
      · rintro ⟨i, _, hz⟩
        simp only [zs] at hz
        split at hz
        · rename_i gi ri hg hri
          split_ifs at hz with hc
          · exact absurd rfl hz
          · refine ⟨i, gi, ri, hg, hri, by simpa using hc, fun h0 => hz ?_⟩
            rw [h0]
            rfl
        · exact absurd rfl hz
      · rintro ⟨i, gi, ri, hg, hri, hc, ht⟩
        refine ⟨i, List.mem_range.2 ?_, ?_⟩
        · rw [← hr.regions_len]
          exact (List.getElem?_eq_some_iff.1 hg).1
        · simp only [zs, hg, hri, hc]
          rw [if_neg (by decide)]
          simpa using ht
    rw [← hiff]
    by_cases hc : ∃ i ∈ List.range x.length, zs i ≠ []
    · rw [if_pos hc]
      exact ⟨fun _ => hc, fun _ => rfl⟩
    · rw [if_neg hc]
      exact ⟨fun h0 => (by cases h0), fun h0 => absurd h0 hc⟩
  · split_ifs
    · exact .inr rfl
    · exact .inl rfl

/-! ## Sets of other observations -/

theorem call_sets (e : CrEngine X P S R G D) (st : CrState X P S R G D) (c : CrCall X P) (hc : ∀ x p, c ≠ .localSets x p) :
    (st.call e c).1.sets = st.sets := by
  cases c with
  | localSets x p => exact absurd rfl (hc x p)
  | localRules x p => simp only [CrState.call]; split <;> rfl
  | localSampling x p => rfl
  | sufficientRules x p => simp only [CrState.call]; split <;> rfl
  | regionalSets p =>
    simp only [CrState.call]
    split
    · split <;> rfl
    · rfl
    · split <;> rfl
  | regionalRules p =>
    simp only [CrState.call]
    split
    · split <;> rfl
    · rfl
  | regionalSampling p => simp only [CrState.call]; split <;> rfl

theorem sets_keep (e : CrEngine X P S R G D) : ∀ (g : List (CrCall X P)) (st : CrState X P S R G D),
    (∀ x p, CrCall.localSets x p ∉ g) → (g.foldl (fun st c => (st.call e c).1) st).sets = st.sets := by
  intro g
  induction g with
  | nil => intro st _; rfl
  | cons c g ih =>
    intro st hg
    rw [List.foldl_cons, ih _ (fun x p hm => hg x p (List.mem_cons_of_mem _ hm)), call_sets e st c]
    rintro x p rfl
    exact hg x p List.mem_cons_self

/-- **C101, what a rule stage on other observations does**: after the divergent sets `ss` of `x` (and any other stages), the rules of `x'`
are computed with the sets of the rows of `x` at the same positions; no exception tells that `x'` is not `x`. -/
theorem C101_other_observations (e : CrEngine X P S R G D) (h later : List (CrCall X P)) {x x' : List X} {p q : P} {ss : List S}
    {rr : List R} (hs : e.localSets x p = .ok ss) (hl : ∀ x p, CrCall.localSets x p ∉ later) (hlen : x'.length ≤ ss.length)
    (hrr : rr.length = x'.length)
    (hrules : ∀ (i : Nat) xi si ri, x'[i]? = some xi → ss[i]? = some si → rr[i]? = some ri → e.localRule xi q i si = .ok ri) :
    (CrState.after e (h ++ .localSets x p :: later ++ [.localRules x' q])).rules = some rr ∧
    crRaised e (h ++ .localSets x p :: later) (.localRules x' q) = none := by
  have hset : (CrState.after e (h ++ .localSets x p :: later)).sets = some ss := by
    rw [cr_after_append, List.foldl_cons, sets_keep e later _ hl]
    simp only [CrState.call, hs]
  have h1 : x'.zipIdx.mapM (localRuleRow e (CrState.after e (h ++ .localSets x p :: later)) q) = .ok rr := by
    refine mapM_zipIdx_ok _ x' 0 rr hrr fun i xi ri hx hri => ?_
    have hi := (List.getElem?_eq_some_iff.1 hx).1
    have hsi : ss[i]? = some (ss[i]'(by omega)) := List.getElem?_eq_getElem _
    simp only [localRuleRow, hset, Nat.zero_add, pyIndex_some hsi]
    exact hrules i xi _ ri hx hsi hri
  constructor
  · rw [cr_after_append (h := h ++ .localSets x p :: later), List.foldl_cons, List.foldl_nil]
    simp only [CrState.call, h1]
  · simp only [crRaised, CrState.call, h1]

theorem regionalRules_call (e : CrEngine X P S R G D) (st : CrState X P S R G D) {x : List X} {t q : P} {r : List R}
    (hx : st.xRules = some x) (ht : st.targets = some t) (h1 : x.zipIdx.mapM (regionalRuleRow e st t q) = .ok r) :
    st.call e (.regionalRules q) = ({ st with regionalRules := some r }, none) := by
  simp only [CrState.call, hx, ht, h1]

/-- **C101, the same for regions**: after the regional sequence for `x`, new sufficient rules for `x'` followed by the regional rule stage
combine the observations and regions of `x'` with the divergent sets and the targets of `x`, without exception. -/
theorem C101_other_regions (e : CrEngine X P S R G D) (h : List (CrCall X P)) {x x' : List X} {g g' p q q' : P} {gs gs' : List G}
    {ss : List S} {rr rr' : List R} (hr : RegionalResult e x g p q gs ss rr) (hg : e.regions x' g' = .ok gs')
    (hglen : gs'.length = x'.length) (hlen : x'.length ≤ x.length) (hrr : rr'.length = x'.length)
    (hrules : ∀ (i : Nat) xi gi si ri, x'[i]? = some xi → gs'[i]? = some gi → ss[i]? = some si → rr'[i]? = some ri →
      e.regionalRule xi p q' i gi si = .ok ri) :
    (CrState.after e (h ++ regionalRun x g p q ++ [.sufficientRules x' g', .regionalRules q'])).regionalRules = some rr' ∧
    crRaised e (h ++ regionalRun x g p q ++ [.sufficientRules x' g']) (.regionalRules q') = none := by
  have e3 := regional_after e h hr
  have e4 : (CrState.after e (h ++ regionalRun x g p q)).call e (.sufficientRules x' g') =
      ({ CrState.after e (h ++ regionalRun x g p q) with xRules := some x', regions := some gs' }, none) := by
    simp only [CrState.call, hg]
  have hset : (CrState.after e (h ++ regionalRun x g p q)).regionalSets = some ss := by rw [e3]
  have ht : (CrState.after e (h ++ regionalRun x g p q)).targets = some p := by rw [e3]
  have h1 : x'.zipIdx.mapM (regionalRuleRow e
      ({ CrState.after e (h ++ regionalRun x g p q) with xRules := some x', regions := some gs' } : CrState X P S R G D) p q') =
        .ok rr' := by
    refine mapM_zipIdx_ok _ x' 0 rr' hrr fun i xi ri hx hri => ?_
    have hi := (List.getElem?_eq_some_iff.1 hx).1
    have hsi : ss[i]? = some (ss[i]'(by rw [hr.sets_len]; omega)) := List.getElem?_eq_getElem _
    obtain ⟨gi, hgi⟩ := getElem?_of_len hglen hx
    simp only [regionalRuleRow, hset, Nat.zero_add, pyIndex_some hsi, pyIndex_some hgi]
    exact hrules i xi gi _ ri hx hgi hsi hri
  have e5 : ({ CrState.after e (h ++ regionalRun x g p q) with xRules := some x', regions := some gs' } : CrState X P S R G D).call e
      (.regionalRules q') = ({ CrState.after e (h ++ regionalRun x g p q) with
        xRules := some x', regions := some gs', regionalRules := some rr' }, none) :=
    regionalRules_call e _ rfl ht h1
  constructor
  · rw [cr_after_append (h := h ++ regionalRun x g p q), List.foldl_cons, List.foldl_cons, List.foldl_nil, e4, e5]
  · rw [crRaised, cr_after_append (h := h ++ regionalRun x g p q), List.foldl_cons, List.foldl_nil, e4, e5]

theorem mapM_zipIdx_first {α β : Type} (f : α × Nat → Except String β) (err : String) {x : List α} (hx : x ≠ [])
    (h : ∀ a ∈ x, f (a, 0) = .error err) : x.zipIdx.mapM f = .error err := by
  cases x with
  | nil => exact absurd rfl hx
  | cons a l =>
    rw [List.zipIdx_cons, List.mapM_cons, h a List.mem_cons_self]
    rfl

theorem call_rules_keep (e : CrEngine X P S R G D) (st : CrState X P S R G D) (c : CrCall X P) (hc : ∀ x p, c ≠ .localRules x p) :
    (st.call e c).1.rules = st.rules := by
  cases c with
  | localRules x p => exact absurd rfl (hc x p)
  | localSets x p => simp only [CrState.call]; split <;> rfl
  | localSampling x p => rfl
  | sufficientRules x p => simp only [CrState.call]; split <;> rfl
  | regionalSets p =>
    simp only [CrState.call]
    split
    · split <;> rfl
    · rfl
    · split <;> rfl
  | regionalRules p =>
    simp only [CrState.call]
    split
    · split <;> rfl
    · rfl
  | regionalSampling p => simp only [CrState.call]; split <;> rfl

theorem rules_keep (e : CrEngine X P S R G D) : ∀ (g : List (CrCall X P)) (st : CrState X P S R G D),
    (∀ x p, CrCall.localRules x p ∉ g) → (g.foldl (fun st c => (st.call e c).1) st).rules = st.rules := by
  intro g
  induction g with
  | nil => intro st _; rfl
  | cons c g ih =>
    intro st hg
    rw [List.foldl_cons, ih _ (fun x p hm => hg x p (List.mem_cons_of_mem _ hm)), call_rules_keep e st c]
    rintro x p rfl
    exact hg x p List.mem_cons_self

/-- **C101, stages out of order**: before any divergent set, the rules of one observation or more raise `TypeError`; before any rule, so does
the sampling; before `run_sufficient_rules` the regional stages raise `AttributeError`. -/
theorem C101_out_of_order (e : CrEngine X P S R G D) (h : List (CrCall X P)) (q : P) :
    ((∀ x p, CrCall.localSets x p ∉ h) → ∀ x ≠ [], crRaised e h (.localRules x q) = some "TypeError") ∧
    ((∀ x p, CrCall.localRules x p ∉ h) → ∀ x ≠ [], crRaised e h (.localSampling x q) = some "TypeError") ∧
    ((∀ x p, CrCall.sufficientRules x p ∉ h) → crRaised e h (.regionalSets q) = some "AttributeError" ∧
      crRaised e h (.regionalRules q) = some "AttributeError" ∧ crRaised e h (.regionalSampling q) = some "AttributeError") := by
  refine ⟨?_, ?_, ?_⟩
  · intro hn x hx
    have hs : (CrState.after e h).sets = none := by
      unfold CrState.after
      rw [sets_keep e h _ hn]
    have := mapM_zipIdx_first (localRuleRow e (CrState.after e h) q) "TypeError" hx (fun a _ => by
      simp only [localRuleRow, hs, pyIndex])
    simp only [crRaised, CrState.call, this]
  · intro hn x hx
    have hs : (CrState.after e h).rules = none := by
      unfold CrState.after
      rw [rules_keep e h _ hn]
    cases x with
    | nil => exact absurd rfl hx
    | cons a l => simp only [crRaised, CrState.call, List.zipIdx_cons, appendLoop, localSampleRow, hs, pyIndex]
  · intro hn
    have hx : ∀ (g : List (CrCall X P)) (st : CrState X P S R G D), (∀ x p, CrCall.sufficientRules x p ∉ g) → st.xRules = none →
        (g.foldl (fun st c => (st.call e c).1) st).xRules = none := by
      intro g
      induction g with
      | nil => intro st _ h0; exact h0
      | cons c g ih =>
        intro st hg h0
        rw [List.foldl_cons]
        refine ih _ (fun x p hm => hg x p (List.mem_cons_of_mem _ hm)) ?_
        cases c with
        | sufficientRules x p => exact absurd List.mem_cons_self (hg x p)
        | localSets x p => simp only [CrState.call]; split <;> exact h0
        | localRules x p => simp only [CrState.call]; split <;> exact h0
        | localSampling x p => exact h0
        | regionalSets p =>
          simp only [CrState.call, h0]
          split
          · rfl
          · exact h0
        | regionalRules p => simp only [CrState.call, h0]
        | regionalSampling p => simp only [CrState.call, h0]
    have h0 : (CrState.after e h).xRules = none := hx h {} hn rfl
    refine ⟨?_, ?_, ?_⟩ <;> simp only [crRaised, CrState.call, h0]

/-! ## The stages of the code -/

/-- The stages of the code give one divergent set for each observation. -/
theorem crEngine_sets_len (a : CfArgs) (order : List Nat) (xTest : List Row) (regions : List Row → CrParams → Except String (List Rule))
    (x : List Row) (p : CrParams) (ss : List CrSet) (h : (crEngine a order xTest regions).localSets x p = .ok ss) :
    ss.length = x.length := by
  simp only [crEngine, crLocalSets] at h
  split at h
  · cases h
  · cases h
    simp

theorem crEngine_regionalSets_len (a : CfArgs) (order : List Nat) (xTest : List Row)
    (regions : List Row → CrParams → Except String (List Rule))
    (x : List Row) (gs : List Rule) (p : CrParams) (ss : List CrSet) (h : (crEngine a order xTest regions).regionalSets x gs p = .ok ss) :
    ss.length = x.length := by
  simp only [crEngine, crRegionalSets] at h
  split at h
  · cases h
  · cases h
    simp

/-- Four training rows, the corners of a square, output 1 at the corner `(1, 1)` and 0 elsewhere; two trees, one for each column. -/
def cornerArgs : CfArgs where
  m := 2
  N := 4
  mems := [Mem.ofTree (splitOn 0 0) leafJunk, Mem.ofTree (splitOn 1 0) leafJunk]
  data := fun i j => (([[-1, -1], [-1, 1], [1, -1], [1, 1]] : List (List ℚ)).getD i []).getD j 0
  y := fun i => ([0, 0, 0, 1] : List ℚ).getD i 0
  minSize := 1
  maxDepth := 3
  classifier := true
  target := 1
  down := 0
  up := 0
  nTry := 2
  batch := 2
  maxIter := 2
  maxConv := 5

/-- The wanted output is 1. -/
def cornerParams : CrParams where
  target := fun _ => 1
  down := fun _ => 0
  up := fun _ => 0
  given := true
  acc := 1/2
  pi := 1/2
  stop := true
  half := 1
  draws := fun _ _ => exploreDraws 1
  score := fun z => z 0
  batch := 1
  maxIter := 1
  maxObs := 2
  first := fun _ _ _ => 0
  rand := fun _ _ _ _ _ => 0
  accept := fun _ _ _ => true

def pairRow (a b : ℚ) : Row := fun j => if j = 0 then a else b

def cornerEngine : CrEngine Row CrParams CrSet CrRules Rule Sample :=
  crEngine cornerArgs [] [pairRow 1 (-1), pairRow (-1) (-1)] fun x _ => .ok (x.map fun _ => Rule.init)

/-- What is shown of the rules: the two intervals and the probability. -/
def crView (l : Option (List CrRules)) : Option (List (List ((ℚ × ℚ) × (ℚ × ℚ) × ℚ))) :=
  l.map fun l => l.map fun c => c.map fun r => (r.1 0, r.1 1, r.2.1)

/-- The hypotheses of `C101_local_history` hold for two observations; the samples are the corner `(1, 1)`. -/
example : crRaised cornerEngine [] (.localSets [pairRow (-1) 1, pairRow 1 (-1)] cornerParams) = none ∧
    crRaised cornerEngine [.localSets [pairRow (-1) 1, pairRow 1 (-1)] cornerParams]
      (.localRules [pairRow (-1) 1, pairRow 1 (-1)] cornerParams) = none ∧
    crRaised cornerEngine [.localSets [pairRow (-1) 1, pairRow 1 (-1)] cornerParams, .localRules [pairRow (-1) 1, pairRow 1 (-1)] cornerParams]
      (.localSampling [pairRow (-1) 1, pairRow 1 (-1)] cornerParams) = none ∧
    ((CrState.after cornerEngine (localRun [pairRow (-1) 1, pairRow 1 (-1)] cornerParams cornerParams cornerParams)).samples.map fun l =>
      l.map fun d => (d.best 0, d.best 1)) = some [(1, 1), (1, 1)] := by
  refine ⟨?_, ?_, ?_, ?_⟩ <;> decide +kernel

example : ∃ ss rr dd, LocalResult cornerEngine [pairRow (-1) 1, pairRow 1 (-1)] cornerParams cornerParams cornerParams ss rr dd :=
  localResult_of_quiet cornerEngine (crEngine_sets_len _ _ _ _) [] (by decide +kernel) (by decide +kernel) (by decide +kernel)

theorem corner_regional : ∃ gs ss rr, RegionalResult cornerEngine [pairRow (-1) 1] cornerParams cornerParams cornerParams gs ss rr :=
  regionalResult_of_quiet cornerEngine (fun x p gs h => by cases h; simp) (crEngine_regionalSets_len _ _ _ _) []
    (by decide +kernel) (by decide +kernel) (by decide +kernel)

/-- Every stage is documented to work on the observations given to it: the rules of `x'` should not depend on the observations of which
the divergent sets were computed before. -/
def C101_own_claim : Prop :=
  ∀ (a : CfArgs) (order : List Nat) (xTest : List Row) (regions : List Row → CrParams → Except String (List Rule)) (x x' : List Row)
    (p q : CrParams), crRaised (crEngine a order xTest regions) [.localSets x p] (.localRules x' q) = none →
      crView (CrState.after (crEngine a order xTest regions) [.localSets x p, .localRules x' q]).rules =
        crView (CrState.after (crEngine a order xTest regions) [.localSets x' p, .localRules x' q]).rules

/-- **C101, the stage claim is false**: the divergent set of `(-1, 1)` is column 0, that of `(1, -1)` column 1. With the sets of `(-1, 1)`
the rule found for `(1, -1)` changes column 0, keeps column 1 at -1 and has probability 1/8; its own rule has probability 3/8. -/
theorem C101_own_false : ¬ C101_own_claim := by
  intro h
  have h1 := h cornerArgs [] [] (fun x _ => .ok (x.map fun _ => Rule.init)) [pairRow (-1) 1] [pairRow 1 (-1)] cornerParams cornerParams
    (by decide +kernel)
  have h2 : crView (CrState.after (crEngine cornerArgs [] [] fun x _ => .ok (x.map fun _ => Rule.init))
      [.localSets [pairRow (-1) 1] cornerParams, .localRules [pairRow 1 (-1)] cornerParams]).rules =
      some [[((0, 10000000000), (-1, -1), 1/8)]] := by decide +kernel
  have h3 : crView (CrState.after (crEngine cornerArgs [] [] fun x _ => .ok (x.map fun _ => Rule.init))
      [.localSets [pairRow 1 (-1)] cornerParams, .localRules [pairRow 1 (-1)] cornerParams]).rules =
      some [[((1, 1), (0, 10000000000), 3/8)]] := by decide +kernel
  rw [h2, h3] at h1
  revert h1
  decide +kernel

/-- The regional workflow, documented on its own, should raise nothing when its first three stages raise nothing. -/
def C101_regional_claim : Prop :=
  ∀ (a : CfArgs) (order : List Nat) (xTest : List Row) (regions : List Row → CrParams → Except String (List Rule)) (x : List Row)
    (g p q r : CrParams), (∃ gs ss rr, RegionalResult (crEngine a order xTest regions) x g p q gs ss rr) →
      crRaised (crEngine a order xTest regions) (regionalRun x g p q) (.regionalSampling r) = none

/-- **C101, the regional claim is false**: on a new object there is no isolation forest. -/
theorem C101_regional_false : ¬ C101_regional_claim := by
  intro h
  have h1 := h cornerArgs [] _ _ _ _ _ _ cornerParams corner_regional
  have h2 : crRaised cornerEngine (regionalRun [pairRow (-1) 1] cornerParams cornerParams cornerParams) (.regionalSampling cornerParams) =
      some "AttributeError" := by decide +kernel
  exact absurd (h1.symm.trans h2) (by decide)

/-- After a local sampling the same regional sampling works. -/
example : crRaised cornerEngine (localRun [pairRow (-1) 1] cornerParams cornerParams cornerParams ++
    regionalRun [pairRow (-1) 1] cornerParams cornerParams cornerParams) (.regionalSampling cornerParams) = none := by decide +kernel

/-- A small engine that records what it was given: the hypotheses of `C101_regional_samples` with two regions, one without rule. -/
def traceEngine : CrEngine Nat Nat Nat Nat Nat (List Nat) where
  localSets := fun x p => .ok (x.map (· + p))
  localRule := fun x p i s => .ok (x + p + i + s)
  noRule := fun c => decide (c = 0)
  localSample := fun f x p i s c => .ok [f, x, p, i, s, c]
  regions := fun x p => .ok (x.map (· + p))
  regionalSets := fun x _ p => .ok (x.map (· + p))
  regionalRule := fun x _ _ _ _ _ => .ok x
  given := fun _ => true
  tests := fun _ g => [g, g + 1]
  regionalSample := fun f z p i k s c => .ok [f, z, p, i, k, s, c]

example : RegionalResult traceEngine [0, 5] 1 2 3 [1, 6] [2, 7] [0, 5] ∧
    RegionalSamples traceEngine 9 4 [1, 6] [2, 7] [0, 5] [[], [[9, 6, 4, 1, 0, 7, 5], [9, 7, 4, 1, 1, 7, 5]]] ∧
    LastLocalSampling [.localSampling [3] 8, .localSampling [] 9, .localSets [1] 1] (9 : Nat) := by
  refine ⟨⟨rfl, rfl, rfl, rfl, rfl, ?_⟩, ⟨rfl, ?_, ?_, ?_⟩, ⟨[.localSampling [3] 8], [], [.localSets [1] 1], rfl, by simp⟩⟩
  · rintro (_ | _ | i) xi gi si ri h1 h2 h3 h4 <;> cases h1 <;> cases h2 <;> cases h3 <;> cases h4 <;> rfl
  · rintro (_ | _ | i) ri di h1 h2 h3 <;> cases h1 <;> cases h2
    · rfl
    · cases h3
  · rintro (_ | _ | i) gi ri di h1 h2 h3 h4 <;> cases h1 <;> cases h2 <;> cases h3
    · cases h4
    · rfl
  · rintro (_ | _ | i) gi si ri di (_ | _ | k) z d h1 h2 h3 h4 h5 h6 h7 <;> cases h1 <;> cases h2 <;> cases h3 <;> cases h4 <;>
      cases h7 <;> cases h6 <;> rfl

example : (CrState.after traceEngine (regionalRun [0, 5] 1 2 3 ++ [.sufficientRules [8] 7, .regionalRules 3])).regionalRules = some [8] ∧
    crRaised traceEngine (regionalRun [0, 5] 1 2 3 ++ [.sufficientRules [8] 7]) (.regionalRules 3) = none := by decide

/-! ## Positions of the samples -/

/-- `dist_local[i]` should be the sample of observation `i`. -/
def C101_position_claim : Prop :=
  ∀ (a : CfArgs) (order : List Nat) (xTest : List Row) (regions : List Row → CrParams → Except String (List Rule)) (x : List Row)
    (p q r : CrParams) (ss : List CrSet) (rr : List CrRules) (dd : List (List Sample)),
    LocalResult (crEngine a order xTest regions) x p q r ss rr dd →
      ∀ samples, (CrState.after (crEngine a order xTest regions) (localRun x p q r)).samples = some samples →
        samples.length = x.length

/-- **C101, positions, partial**: if every observation has a rule, `dist_local[i]` is the sample of observation `i`. -/
theorem C101_position_partial (e : CrEngine X P S R G D) (h : List (CrCall X P)) {x : List X} {p q r : P} {ss : List S} {rr : List R}
    {dd : List (List D)} (hr : LocalResult e x p q r ss rr dd) (hall : ∀ c ∈ rr, e.noRule c = false) :
    ∃ samples : List D, (CrState.after e (h ++ localRun x p q r)).samples = some samples ∧ samples.length = x.length ∧
      ∀ (i : Nat) xi si ri d, x[i]? = some xi → ss[i]? = some si → rr[i]? = some ri → samples[i]? = some d →
        e.localSample r xi r i si ri = .ok d := by
  have hone : ∀ di ∈ dd, ∃ d, di = [d] := by
    intro di hdi
    obtain ⟨i, hi, hget⟩ := List.getElem_of_mem hdi
    have h4 : dd[i]? = some di := by rw [List.getElem?_eq_getElem hi, hget]
    obtain ⟨xi, hx⟩ : ∃ v, x[i]? = some v := getElem?_of_len hr.samples_len.symm h4
    obtain ⟨si, hs⟩ := getElem?_of_len hr.sets_len hx
    obtain ⟨ri, hri⟩ := getElem?_of_len hr.rules_len hx
    have h5 := hr.samples i xi si ri di hx hs hri h4
    rw [if_neg (by rw [hall ri (List.mem_of_getElem? hri)]; decide)] at h5
    obtain ⟨d, hd, _⟩ := h5
    exact ⟨d, hd⟩
  obtain ⟨l, rfl⟩ : ∃ l : List D, dd = l.map fun d => [d] := by
    clear hr
    induction dd with
    | nil => exact ⟨[], rfl⟩
    | cons di dd ih =>
      obtain ⟨d, rfl⟩ := hone di List.mem_cons_self
      obtain ⟨l, hl⟩ := ih fun dj hj => hone dj (List.mem_cons_of_mem _ hj)
      exact ⟨d :: l, by rw [hl]; rfl⟩
  obtain ⟨_, _, h3, _⟩ := C101_local e h hr
  rw [flatten_single] at h3
  refine ⟨l, h3, by simpa using hr.samples_len, fun i xi si ri d hx hs hri hd => ?_⟩
  have h5 := hr.samples i xi si ri [d] hx hs hri (by rw [List.getElem?_map, hd]; rfl)
  rw [if_neg (by rw [hall ri (List.mem_of_getElem? hri)]; decide)] at h5
  obtain ⟨d', hd', he⟩ := h5
  cases hd'
  exact he

/-- The corners with outputs 2, 0, 1, 1. -/
def gapArgs : CfArgs := { cornerArgs with y := fun i => ([2, 0, 1, 1] : List ℚ).getD i 0 }

/-- The wanted output is 1 for the first observation, 2 for the second. -/
def gapParams : CrParams := { cornerParams with target := fun i => if i = 0 then 1 else 2 }

def gapEngine : CrEngine Row CrParams CrSet CrRules Rule Sample := crEngine gapArgs [] [] fun x _ => .ok (x.map fun _ => Rule.init)

theorem gap_local : ∃ ss rr dd, LocalResult gapEngine [pairRow (-1) 1, pairRow 1 (-1)] gapParams gapParams gapParams ss rr dd :=
  localResult_of_quiet gapEngine (crEngine_sets_len _ _ _ _) [] (by decide +kernel) (by decide +kernel) (by decide +kernel)

/-- **C101, the position claim is false**: the two leaves compatible with the first observation give the same condition, which the removal of
nested rules deletes twice, so it has no rule. `dist_local` has one row, the sample of the second observation. -/
theorem C101_position_false : ¬ C101_position_claim := by
  intro h
  obtain ⟨ss, rr, dd, hr⟩ := gap_local
  have h1 : ((CrState.after gapEngine (localRun [pairRow (-1) 1, pairRow 1 (-1)] gapParams gapParams gapParams)).samples.map
      List.length) = some 1 := by decide +kernel
  cases hs : (CrState.after gapEngine (localRun [pairRow (-1) 1, pairRow 1 (-1)] gapParams gapParams gapParams)).samples with
  | none => rw [hs] at h1; cases h1
  | some l =>
    have h2 := h gapArgs [] [] _ _ _ _ _ ss rr dd hr l hs
    rw [hs] at h1
    have h3 : l.length = 1 := Option.some.inj h1
    rw [h3] at h2
    exact absurd h2 (by decide)

end Acv
