import Verif.Model.CrMetrics
import Verif.Props.Counterfactual
import Verif.Lemmas.SearchEnum

/-! # C91: the figures reported by `CR` -/

namespace Acv

/-- The row sampled for an observation, if a rule was found for it. -/
def sampleOf {α : Type} (N : Nat) (data : Nat → Row) (score : Row → ℚ) (batch maxIter : Nat) (o : CrObs α) : Option Row :=
  ((runSampling N data score o.rules o.sStar o.x batch maxIter o.first o.draws o.accept).getD none).map Sample.best

/-- The observations for which a rule was found, with their samples. -/
def sampledObs {α : Type} (N : Nat) (data : Nat → Row) (score : Row → ℚ) (batch maxIter : Nat) (obs : List (CrObs α)) :
    List (CrObs α × Row) :=
  obs.filterMap fun o => (sampleOf N data score batch maxIter o).map fun s => (o, s)

/-- The share of the elements of a list with a property: NaN for an empty list. -/
def shareOf {β : Type} (p : β → Bool) (l : List β) : Option ℚ := if l = [] then none else some ((l.countP p : ℚ) / l.length)

theorem meanBool_map {β : Type} (p : β → Bool) (l : List β) : meanBool (l.map p) = shareOf p l := by
  unfold meanBool shareOf
  rw [List.length_map, List.count, List.countP_map]
  have e : ((fun b => b == true) ∘ p) = p := by
    funext b; simp
  rw [e]
  by_cases h : l = []
  · simp [h]
  · rw [if_neg (by simpa using h), if_neg h]

/-- What one observation adds to `errs_local`. -/
def wantedEntry {α : Type} (classifier : Bool) (pred : Row → ℚ) (q : CrObs α × Row) : Bool :=
  if classifier then decide (pred q.2 ≠ pred q.1.x) else decide (q.1.down ≤ pred q.2) && decide (pred q.2 ≤ q.1.up)

theorem crEntry_eq {α : Type} {N : Nat} {data : Nat → Row} {score : Row → ℚ} {classifier : Bool} {pred : Row → ℚ}
    {batch maxIter : Nat} {o : CrObs α} {e : List Bool × List Bool}
    (h : crEntry N data score classifier pred none batch maxIter o = some e) :
    e = (((sampleOf N data score batch maxIter o).map fun s => wantedEntry classifier pred (o, s)).toList, []) := by
  unfold crEntry at h
  unfold sampleOf
  obtain ⟨r, hr, rfl⟩ := Option.map_eq_some_iff.1 h
  rw [hr]
  rcases r with _ | s
  · rfl
  · rfl

theorem crEntries_eq {α : Type} {N : Nat} {data : Nat → Row} {score : Row → ℚ} {classifier : Bool} {pred : Row → ℚ}
    {batch maxIter : Nat} : ∀ {obs : List (CrObs α)} {es : List (List Bool × List Bool)},
    obs.mapM (crEntry N data score classifier pred none batch maxIter) = some es →
    es.flatMap Prod.fst = (sampledObs N data score batch maxIter obs).map (wantedEntry classifier pred) ∧ es.flatMap Prod.snd = []
  | [], es, h => by
    rw [List.mapM_nil] at h
    obtain rfl := Option.some.inj h
    exact ⟨rfl, rfl⟩
  | o :: obs, es, h => by
    rw [List.mapM_cons] at h
    rcases he : crEntry N data score classifier pred none batch maxIter o with _ | e
    · rw [he] at h; simp at h
    · rw [he] at h
      rcases hl : obs.mapM (crEntry N data score classifier pred none batch maxIter) with _ | es'
      · rw [hl] at h; simp at h
      · rw [hl] at h
        obtain rfl : e :: es' = es := by simpa using h
        have ih := crEntries_eq hl
        have hx := crEntry_eq he
        rw [List.flatMap_cons, List.flatMap_cons, ih.1, ih.2, hx]
        unfold sampledObs
        rw [List.filterMap_cons]
        rcases sampleOf N data score batch maxIter o with _ | s
        · simp
        · simp

theorem crLocal_eq {α : Type} {N : Nat} {data : Nat → Row} {score : Row → ℚ} {classifier : Bool} {pred : Row → ℚ}
    {model : Option (Row → ℚ)} {batch maxIter : Nat} {obs : List (CrObs α)} {f : CrFigures}
    (h : crLocal N data score classifier pred model batch maxIter obs = some f) : obs ≠ [] ∧
    (∀ o ∈ obs, (runSampling N data score o.rules o.sStar o.x batch maxIter o.first o.draws o.accept).isSome) ∧
    f = ⟨shareOf (wantedEntry classifier pred) (sampledObs N data score batch maxIter obs), none,
      ((sampledObs N data score batch maxIter obs).length : ℚ) / obs.length⟩ := by
  unfold crLocal crModel at h
  rcases hes : obs.mapM (crEntry N data score classifier pred none batch maxIter) with _ | es
  · rw [hes] at h; simp at h
  · rw [hes] at h
    simp only at h
    by_cases hobs : obs = []
    · rw [if_pos hobs] at h; simp at h
    · rw [if_neg hobs] at h
      obtain ⟨h1, h2⟩ := crEntries_eq hes
      refine ⟨hobs, fun o ho => ?_, ?_⟩
      · rcases hr : runSampling N data score o.rules o.sStar o.x batch maxIter o.first o.draws o.accept with _ | r
        · have : crEntry N data score classifier pred none batch maxIter o = none := by
            unfold crEntry; rw [hr]; rfl
          rw [mapM_none _ _ o ho this] at hes
          simp at hes
        · rfl
      · rw [← Option.some.inj h, h1, h2, meanBool_map, List.length_map]
        rfl

theorem sampleOf_isSome {α : Type} {N : Nat} {data : Nat → Row} {score : Row → ℚ} {batch maxIter : Nat} {o : CrObs α}
    (h : (runSampling N data score o.rules o.sStar o.x batch maxIter o.first o.draws o.accept).isSome) :
    (sampleOf N data score batch maxIter o).isSome = !decide (o.rules = []) := by
  obtain ⟨r, hr⟩ := Option.isSome_iff_exists.1 h
  unfold sampleOf
  rw [hr, Option.getD_some]
  unfold runSampling at hr
  by_cases he : o.rules = []
  · have : bestCf o.rules = none := by simp [bestCf, he]
    rw [this] at hr
    obtain rfl := Option.some.inj hr
    simp [he]
  · obtain ⟨c, hc⟩ : ∃ c, bestCf o.rules = some c := by
      unfold bestCf
      rw [if_neg he]
      have hlt := argmaxNan_lt (l := (o.rules.map fun p => p.2.1).map some) (by simpa using he)
      simp only [List.length_map] at hlt
      unfold argmaxQ
      rw [List.getElem?_eq_getElem hlt]
      exact ⟨_, rfl⟩
    rw [hc] at hr
    obtain ⟨s, -, rfl⟩ := Option.map_eq_some_iff.1 hr
    simp [he]

theorem length_filterMap_isSome {β γ : Type} (f : β → Option γ) : ∀ (l : List β), (l.filterMap f).length = l.countP fun b => (f b).isSome
  | [] => rfl
  | b :: l => by
    rw [List.filterMap_cons, List.countP_cons, ← length_filterMap_isSome f l]
    rcases f b with _ | c <;> simp

theorem sampledObs_length {α : Type} {N : Nat} {data : Nat → Row} {score : Row → ℚ} {batch maxIter : Nat} {obs : List (CrObs α)}
    (h : ∀ o ∈ obs, (runSampling N data score o.rules o.sStar o.x batch maxIter o.first o.draws o.accept).isSome) :
    (sampledObs N data score batch maxIter obs).length = obs.countP fun o => !decide (o.rules = []) := by
  unfold sampledObs
  rw [length_filterMap_isSome]
  apply List.countP_congr
  intro o ho
  rw [Option.isSome_map, sampleOf_isSome (h o ho)]

/-- **C91**: the reported coverage is the share of the observations for which a counterfactual rule was found; it is in [0, 1], and is
1 exactly when every observation has one. -/
theorem C91_coverage {α : Type} {N : Nat} {data : Nat → Row} {score : Row → ℚ} {classifier : Bool} {pred : Row → ℚ}
    {model : Option (Row → ℚ)} {batch maxIter : Nat} {obs : List (CrObs α)} {f : CrFigures}
    (h : crLocal N data score classifier pred model batch maxIter obs = some f) :
    f.coverage = (obs.countP fun o => !decide (o.rules = []) : ℚ) / obs.length ∧ 0 ≤ f.coverage ∧ f.coverage ≤ 1 ∧
    (f.coverage = 1 ↔ ∀ o ∈ obs, o.rules ≠ []) := by
  obtain ⟨hne, hs, rfl⟩ := crLocal_eq h
  have hpos : (0 : ℚ) < obs.length := by
    have : 0 < obs.length := List.length_pos_iff.2 hne
    exact_mod_cast this
  have hle : ((obs.countP fun o => !decide (o.rules = []) : Nat) : ℚ) ≤ obs.length := by
    exact_mod_cast List.countP_le_length
  simp only [sampledObs_length hs]
  refine ⟨trivial, by positivity, (div_le_one₀ hpos).2 hle, ?_⟩
  rw [div_eq_one_iff_eq hpos.ne', Nat.cast_inj, List.countP_eq_length]
  simp

/-- **C91**, regression: the reported accuracy is the share of the samples whose prediction is in the wanted interval. -/
theorem C91_accuracy_regression {α : Type} {N : Nat} {data : Nat → Row} {score : Row → ℚ} {pred : Row → ℚ}
    {model : Option (Row → ℚ)} {batch maxIter : Nat} {obs : List (CrObs α)} {f : CrFigures}
    (h : crLocal N data score false pred model batch maxIter obs = some f) :
    f.accuracy = shareOf (fun q : CrObs α × Row => decide (q.1.down ≤ pred q.2 ∧ pred q.2 ≤ q.1.up))
      (sampledObs N data score batch maxIter obs) := by
  obtain ⟨-, -, rfl⟩ := crLocal_eq h
  have e : (wantedEntry false pred : CrObs α × Row → Bool) = fun q => decide (q.1.down ≤ pred q.2 ∧ pred q.2 ≤ q.1.up) := by
    funext q
    simp [wantedEntry, Bool.decide_and]
  simp only [e]

/-- **C91**, two classes: if every wanted class is the other one, the reported accuracy is the share of the samples that get the wanted
class. With three classes it is not (`C91_accuracy_false`). -/
theorem C91_accuracy_binary_partial {α : Type} {N : Nat} {data : Nat → Row} {score : Row → ℚ} {pred : Row → ℚ}
    {model : Option (Row → ℚ)} {batch maxIter : Nat} {obs : List (CrObs α)} {f : CrFigures} (y : CrObs α → ℚ)
    (hp : ∀ z, pred z = 0 ∨ pred z = 1) (hy : ∀ o, y o = 1 - pred o.x)
    (h : crLocal N data score true pred model batch maxIter obs = some f) :
    f.accuracy = shareOf (fun q : CrObs α × Row => decide (pred q.2 = y q.1)) (sampledObs N data score batch maxIter obs) := by
  obtain ⟨-, -, rfl⟩ := crLocal_eq h
  have e : (wantedEntry true pred : CrObs α × Row → Bool) = fun q => decide (pred q.2 = y q.1) := by
    funext q
    simp only [wantedEntry, if_true, hy]
    rcases hp q.2 with h2 | h2 <;> rcases hp q.1.x with h1 | h1 <;> simp [h1, h2]
  simp only [e]

/-- **C91**, any classifier: the reported accuracy is the share of the samples that change the predicted class. -/
theorem C91_accuracy_changed {α : Type} {N : Nat} {data : Nat → Row} {score : Row → ℚ} {pred : Row → ℚ}
    {model : Option (Row → ℚ)} {batch maxIter : Nat} {obs : List (CrObs α)} {f : CrFigures}
    (h : crLocal N data score true pred model batch maxIter obs = some f) :
    f.accuracy = shareOf (fun q : CrObs α × Row => decide (pred q.2 ≠ pred q.1.x)) (sampledObs N data score batch maxIter obs) := by
  obtain ⟨-, -, rfl⟩ := crLocal_eq h
  rfl

/-- One observation of class 0 whose rule leads to rows of class 2. -/
def threeObs : CrObs Unit where
  x := fun _ => 0
  down := 0
  up := 0
  rules := [(fun _ => (2, 2), 1, ())]
  sStar := [0]
  first := fun _ => 0
  draws := fun _ _ _ => 0
  accept := fun _ => false

/-- **C91 is false with three classes**: the wanted class is 1, the sample is of class 2, and the reported accuracy is 1. -/
theorem C91_accuracy_false : ∃ f, crLocal 1 (fun _ _ => 2) (fun _ => 1) true (fun z => z 0) none 2 3 [threeObs] = some f ∧
    f.accuracy = some 1 ∧ ∀ q ∈ sampledObs 1 (fun _ _ => 2) (fun _ => 1) 2 3 [threeObs], q.2 0 ≠ 1 := by
  have h : ∃ f, crLocal 1 (fun _ _ => 2) (fun _ => 1) true (fun z => z 0) none 2 3 [threeObs] = some f := by
    rw [← Option.isSome_iff_exists]
    decide +kernel
  obtain ⟨f, hf⟩ := h
  refine ⟨f, hf, ?_, ?_⟩
  · have : (crLocal 1 (fun _ _ => 2) (fun _ => 1) true (fun z => z 0) none 2 3 [threeObs]).map CrFigures.accuracy = some (some 1) := by
      decide +kernel
    rw [hf] at this
    exact Option.some.inj this
  · have : (sampledObs 1 (fun _ _ => 2) (fun _ => 1) 2 3 [threeObs]).all (fun q => decide (q.2 0 ≠ 1)) = true := by decide +kernel
    intro q hq
    simpa using List.all_eq_true.1 this q hq

/-- **C91 is false of the accuracy on the original model**: whatever model is given to the constructor, the accuracy is NaN. -/
theorem C91_original_false {α : Type} {N : Nat} {data : Nat → Row} {score : Row → ℚ} {classifier : Bool} {pred : Row → ℚ}
    {model : Option (Row → ℚ)} {batch maxIter : Nat} {obs : List (CrObs α)} {f : CrFigures}
    (h : crLocal N data score classifier pred model batch maxIter obs = some f) : f.original = none := by
  obtain ⟨-, -, rfl⟩ := crLocal_eq h
  rfl

/-- Two observations, one without rule. -/
example : (crLocal 1 (fun _ _ => 2) (fun _ => 1) true (fun z => z 0) (some fun z => z 0) 2 3
    [threeObs, { threeObs with rules := [] }]).map (fun f => (f.accuracy, f.original, f.coverage)) = some (some 1, none, 1 / 2) := by
  decide +kernel

/-! ## All test rows -/

theorem mapM_ok_mem {β γ : Type} {f : β → Except String γ} : ∀ {l : List β} {r : List γ}, l.mapM f = .ok r →
    (∀ b ∈ l, ∃ c ∈ r, f b = .ok c) ∧ ∀ c ∈ r, ∃ b ∈ l, f b = .ok c
  | [], r, h => by
    rw [List.mapM_nil] at h
    obtain rfl := Except.ok.inj h
    simp
  | b :: l, r, h => by
    rw [List.mapM_cons] at h
    rcases hb : f b with e | c
    · rw [hb] at h; exact absurd h (by simp [bind, Except.bind])
    · rw [hb] at h
      rcases hl : l.mapM f with e | r'
      · rw [hl] at h; exact absurd h (by simp [bind, Except.bind])
      · rw [hl] at h
        obtain rfl : c :: r' = r := by simpa [bind, Except.bind, pure, Except.pure] using h
        obtain ⟨i1, i2⟩ := mapM_ok_mem hl
        refine ⟨fun a ha => ?_, fun a ha => ?_⟩
        · rcases List.mem_cons.1 ha with rfl | ha
          · exact ⟨c, by simp, hb⟩
          · obtain ⟨d, hd, e⟩ := i1 a ha
            exact ⟨d, by simp [hd], e⟩
        · rcases List.mem_cons.1 ha with rfl | ha
          · exact ⟨b, by simp, hb⟩
          · obtain ⟨d, hd, e⟩ := i2 a ha
            exact ⟨d, by simp [hd], e⟩

/-- **C91 is false of the sampling for all test rows**: if the divergent sets are not empty, it raises, or it reports no accuracy and
coverage 0. -/
theorem C91_alltests_false {m : Nat} {gs : List CrRegion} (hS : ∀ g ∈ gs, g.sStar ≠ []) (entry : Row → Bool) (tests : List Row)
    {acc : Option ℚ} {cov : ℚ} (h : allTests m gs entry tests = .ok (acc, cov)) : acc = none ∧ cov = 0 := by
  unfold allTests at h
  rcases hes : tests.mapM (allTestsRow m gs entry) with e | es
  · rw [hes] at h; simp at h
  · rw [hes] at h
    simp only at h
    split at h
    · simp at h
    · have hnil : es.flatten = [] := by
        rw [List.flatten_eq_nil_iff]
        intro c hc
        obtain ⟨x, -, hx⟩ := (mapM_ok_mem hes).2 c hc
        unfold allTestsRow at hx
        split at hx
        · simp at hx
        · rename_i g hg
          rw [if_neg (hS g (List.mem_of_getElem? hg))] at hx
          split at hx
          · exact (Except.ok.inj hx).symm
          · simp at hx
      rw [hnil] at h
      have h' := Prod.mk.inj (Except.ok.inj h)
      refine ⟨h'.1.symm, ?_⟩
      rw [← h'.2]; simp

theorem foldl_max_le_mem : ∀ (l : List ℚ) (a : ℚ), a ≤ l.foldl max a ∧ ∀ b ∈ l, b ≤ l.foldl max a
  | [], a => ⟨le_refl _, by simp⟩
  | c :: l, a => by
    obtain ⟨h1, h2⟩ := foldl_max_le_mem l (max a c)
    refine ⟨(le_max_left _ _).trans h1, fun b hb => ?_⟩
    rcases List.mem_cons.1 hb with rfl | hb
    · exact (le_max_right _ _).trans h1
    · exact h2 b hb

/-- **C91**: it raises as soon as a test row is strictly inside a region that has a counterfactual rule of positive probability. -/
theorem C91_alltests_raises {m : Nat} {gs : List CrRegion} (hS : ∀ g ∈ gs, g.sStar ≠ []) (entry : Row → Bool) {tests : List Row}
    {x : Row} (hx : x ∈ tests) {g : CrRegion} (hg : g ∈ gs) (hin : ∀ s < m, (g.rule s).1 < x s ∧ x s ≤ (g.rule s).2)
    {c : Rule} {p : ℚ} (hc : (c, p) ∈ g.cfs) (hp : 0 < p) : ∃ e, allTests m gs entry tests = .error e := by
  unfold allTests
  rcases hes : tests.mapM (allTestsRow m gs entry) with e | es
  · exact ⟨e, rfl⟩
  · exfalso
    obtain ⟨r, -, hr⟩ := (mapM_ok_mem hes).1 x hx
    have hw : 0 < regionWeight m g x := by
      unfold regionWeight
      rw [if_neg (List.ne_nil_of_mem hc), if_pos]
      · exact hp.trans_le ((foldl_max_le_mem _ _).2 p (List.mem_map.2 ⟨_, hc, rfl⟩))
      · rw [List.all_eq_true]
        intro s hs
        have := hin s (List.mem_range.1 hs)
        simp [this.1, this.2]
    have hne : gs ≠ [] := List.ne_nil_of_mem hg
    obtain ⟨h1, h2⟩ := argmaxQ_spec (f := fun g => regionWeight m g x) hne g
    have hlt := argmaxNan_lt (l := (gs.map fun g => regionWeight m g x).map some) (by simpa using hne)
    simp only [List.length_map] at hlt
    unfold allTestsRow bestRegion at hr
    have hge : gs[argmaxQ (gs.map fun g => regionWeight m g x)]? = some (gs.getD (argmaxQ (gs.map fun g => regionWeight m g x)) g) := by
      unfold argmaxQ
      rw [List.getD_eq_getElem?_getD, List.getElem?_eq_getElem hlt, Option.getD_some]
    rw [hge] at hr
    simp only at hr
    rw [if_neg (hS _ h1)] at hr
    have hwb := hw.trans_le (h2 g hg)
    rw [if_neg] at hr
    · simp at hr
    · intro he
      have hz : regionWeight m (gs.getD (argmaxQ (gs.map fun g => regionWeight m g x)) g) x = 0 := if_pos he
      rw [hz] at hwb
      exact lt_irrefl _ hwb

/-- The hypotheses are met by a region of one column with one counterfactual rule. -/
example : ∃ e, allTests 1 [⟨fun _ => (0, 2), [(fun _ => (3, 4), 9 / 10)], [0]⟩] (fun _ => true) [fun _ => 1] = .error e :=
  C91_alltests_raises (by simp) _ (x := fun _ => 1) (by simp) (g := ⟨fun _ => (0, 2), [(fun _ => (3, 4), 9 / 10)], [0]⟩) (by simp)
    (by intro s _; norm_num) (c := fun _ => (3, 4)) (p := 9 / 10) (by simp) (by norm_num)

/-- The region contains the test row (lower bounds excluded). -/
def InRegion (m : Nat) (g : CrRegion) (x : Row) : Prop := ∀ s < m, (g.rule s).1 < x s ∧ x s ≤ (g.rule s).2

theorem regionWeight_out {m : Nat} {g : CrRegion} {x : Row} (h : ¬ InRegion m g x) : regionWeight m g x = 0 := by
  unfold regionWeight
  split
  · rfl
  · rw [if_neg]
    intro hall
    rw [List.all_eq_true] at hall
    exact h fun s hs => by simpa [and_comm] using hall s (List.mem_range.2 hs)

theorem argmaxQ_zero {l : List ℚ} (h : ∀ v ∈ l, v = 0) : argmaxQ l = 0 := by
  cases l with
  | nil => rfl
  | cons v l =>
    have hn : none ∉ (v :: l).map some := by simp
    obtain ⟨w, hw, hmem, -⟩ := npMax_spec ((v :: l).map some) (by simp) fun o ho e => hn (e ▸ ho)
    have hw0 : w = 0 := by
      obtain ⟨u, hu, e⟩ := List.mem_map.1 hmem
      rw [← Option.some.inj e]
      exact h u hu
    unfold argmaxQ argmaxNan
    rw [if_neg (fun h' => hn (List.idxOf_lt_length_iff.1 h')), hw, hw0]
    have hv : v = 0 := h v (List.mem_cons_self ..)
    rw [hv, List.map_cons, List.idxOf_cons_self]

/-- **C91, test rows outside all regions.** Such a row is not skipped: the first region is used for it. If this region has a counterfactual
rule (and a divergent set that is not empty), the sampling for all test rows raises. -/
theorem C91_alltests_outside {m : Nat} {gs : List CrRegion} {x : Row} (hout : ∀ g ∈ gs, ¬ InRegion m g x) :
    bestRegion m gs x = 0 ∧ ∀ (entry : Row → Bool) {tests : List Row} {g : CrRegion} {rest : List CrRegion}, x ∈ tests → gs = g :: rest →
      g.cfs ≠ [] → g.sStar ≠ [] → ∃ e, allTests m gs entry tests = .error e := by
  have hb : bestRegion m gs x = 0 := by
    unfold bestRegion
    refine argmaxQ_zero fun v hv => ?_
    obtain ⟨g, hg, rfl⟩ := List.mem_map.1 hv
    exact regionWeight_out (hout g hg)
  refine ⟨hb, fun entry tests g rest hx hgs hc hS => ?_⟩
  unfold allTests
  rcases hes : tests.mapM (allTestsRow m gs entry) with e | es
  · exact ⟨e, rfl⟩
  · exfalso
    obtain ⟨r, -, hr⟩ := (mapM_ok_mem hes).1 x hx
    unfold allTestsRow at hr
    rw [hb, hgs] at hr
    simp [hc, hS] at hr

/-- The hypotheses are met by a test row above the only region. -/
example : ∃ e, allTests 1 [⟨fun _ => (0, 2), [(fun _ => (3, 4), 9 / 10)], [0]⟩] (fun _ => true) [fun _ => 3] = .error e :=
  (C91_alltests_outside (m := 1) (gs := [⟨fun _ => (0, 2), [(fun _ => (3, 4), 9 / 10)], [0]⟩]) (x := fun _ => 3) (by
    intro g hg h
    simp only [List.mem_singleton] at hg
    subst hg
    have := (h 0 (by decide)).2
    norm_num at this)).2 _ (by simp) rfl (by simp) (by simp)

/-- The test rows for which the region used has a counterfactual rule. -/
def usedTests (m : Nat) (gs : List CrRegion) (tests : List Row) : List Row :=
  tests.filter fun x => (gs[bestRegion m gs x]?).any fun g => !decide (g.cfs = [])

/-- **C91, the figures for all test rows.** When the sampling for all test rows does not raise, the coverage is the share of the test rows whose
region has a counterfactual rule, and the accuracy is the share of the wanted outcomes among them (NaN if there is none). -/
theorem C91_alltests_figures {m : Nat} {gs : List CrRegion} {entry : Row → Bool} {tests : List Row} {acc : Option ℚ} {cov : ℚ}
    (h : allTests m gs entry tests = .ok (acc, cov)) :
    tests ≠ [] ∧ cov = ((usedTests m gs tests).length : ℚ) / tests.length ∧
    acc = if usedTests m gs tests = [] then none else
      some ((((usedTests m gs tests).filter entry).length : ℚ) / (usedTests m gs tests).length) := by
  have key : ∀ (l : List Row) (es : List (List Bool)), l.mapM (allTestsRow m gs entry) = .ok es →
      es.flatten = (usedTests m gs l).map entry := by
    intro l
    induction l with
    | nil =>
      intro es he
      rw [List.mapM_nil] at he
      obtain rfl := Except.ok.inj he
      rfl
    | cons x l ih =>
      intro es he
      rw [List.mapM_cons] at he
      rcases hx : allTestsRow m gs entry x with e | c
      · rw [hx] at he; exact absurd he (by simp [bind, Except.bind])
      · rw [hx] at he
        rcases hl : l.mapM (allTestsRow m gs entry) with e | r'
        · rw [hl] at he; exact absurd he (by simp [bind, Except.bind])
        · rw [hl] at he
          obtain rfl : c :: r' = es := by simpa [bind, Except.bind, pure, Except.pure] using he
          rw [List.flatten_cons, ih r' hl]
          unfold usedTests
          unfold allTestsRow at hx
          rw [List.filter_cons]
          split at hx
          · cases hx
          · next g hg =>
            rw [hg]
            by_cases hc : g.cfs = []
            · rw [if_pos hc] at hx
              obtain rfl := Except.ok.inj hx
              simp [hc]
            · rw [if_neg hc] at hx
              by_cases hS : g.sStar = []
              · rw [if_pos hS] at hx
                obtain rfl := Except.ok.inj hx
                simp [hc]
              · rw [if_neg hS] at hx
                cases hx
  unfold allTests at h
  rcases hes : tests.mapM (allTestsRow m gs entry) with e | es
  · rw [hes] at h; simp at h
  · rw [hes] at h
    simp only at h
    by_cases ht : tests = []
    · rw [if_pos ht] at h; cases h
    · rw [if_neg ht, key _ _ hes] at h
      obtain ⟨h1, h2⟩ := Prod.mk.inj (Except.ok.inj h)
      refine ⟨ht, by rw [← h2, List.length_map], ?_⟩
      rw [← h1]
      unfold meanBool
      by_cases hu : usedTests m gs tests = []
      · simp [hu]
      · rw [if_neg (by simpa using hu), if_neg hu, List.length_map]
        congr 3
        rw [List.count, List.countP_map, List.countP_eq_length_filter]
        congr 1
        refine List.filter_congr fun z _ => ?_
        simp

/-- Figures that are numbers: an empty divergent set. -/
example : (allTests 1 [⟨fun _ => (0, 2), [(fun _ => (3, 4), 9 / 10)], []⟩] (fun x => decide (x 0 = 1)) [fun _ => 1, fun _ => 2]).toOption =
    some (some (1 / 2), 1) := by decide +kernel

end Acv
