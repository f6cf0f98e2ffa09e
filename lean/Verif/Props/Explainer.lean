import Verif.Spec.Explainer

/-!
# C41: refitting an explainer
-/

namespace Acv

variable {φ ρ : Type}

theorem after_nil (needs : φ → Nat) (cl : Bool) : Explainer.after (ρ := ρ) needs cl [] = { classifier := cl } := rfl

theorem after_snoc (needs : φ → Nat) (cl : Bool) (h : List (Call φ ρ)) (c : Call φ ρ) :
    Explainer.after needs cl (h ++ [c]) = ((Explainer.after needs cl h).call needs c).1 := by
  unfold Explainer.after
  rw [List.foldl_append]
  rfl

theorem after_append (needs : φ → Nat) (cl : Bool) (h g : List (Call φ ρ)) :
    Explainer.after needs cl (h ++ g) = g.foldl (fun e c => (e.call needs c).1) (Explainer.after needs cl h) := by
  unfold Explainer.after
  rw [List.foldl_append]

/-- What one call does to each attribute. -/
theorem call_model (needs : φ → Nat) (e : Explainer φ ρ) (c : Call φ ρ) :
    (e.call needs c).1.model = match c with | .fit _ (some F) => some F | _ => e.model := by
  cases c <;> try rfl
  case fit d F => cases F <;> rfl
  case explain =>
    unfold Explainer.call Explainer.explain
    simp only
    split
    · rfl
    · split
      · split <;> rfl
      · split
        · rfl
        · split <;> rfl

theorem call_classifier (needs : φ → Nat) (e : Explainer φ ρ) (c : Call φ ρ) : (e.call needs c).1.classifier = e.classifier := by
  cases c <;> try rfl
  case fit d F => cases F <;> rfl
  case explain =>
    unfold Explainer.call Explainer.explain
    simp only
    split
    · rfl
    · split
      · split <;> rfl
      · split
        · rfl
        · split <;> rfl

theorem call_rules (needs : φ → Nat) (e : Explainer φ ρ) (c : Call φ ρ) :
    (e.call needs c).1.rules = (match c with | .fitRules R => some R | _ => e.rules) ∧
    (e.call needs c).1.checkIsGlobalrule = match c with | .fitRules _ => true | _ => e.checkIsGlobalrule := by
  cases c <;> try exact ⟨rfl, rfl⟩
  case fit d F => cases F <;> exact ⟨rfl, rfl⟩
  case explain =>
    unfold Explainer.call Explainer.explain
    simp only
    split
    · exact ⟨rfl, rfl⟩
    · split
      · split <;> exact ⟨rfl, rfl⟩
      · split
        · exact ⟨rfl, rfl⟩
        · split <;> exact ⟨rfl, rfl⟩

theorem call_d (needs : φ → Nat) (e : Explainer φ ρ) (c : Call φ ρ) :
    (e.call needs c).1.d = match c with | .fit d _ => some d | _ => e.d := by
  cases c <;> try rfl
  case fit d F => cases F <;> rfl
  case explain =>
    unfold Explainer.call Explainer.explain
    simp only
    split
    · rfl
    · split
      · split <;> rfl
      · split
        · rfl
        · split <;> rfl

/-- Once built, the forest of the explanations never changes. -/
theorem call_built (needs : φ → Nat) {e : Explainer φ ρ} {B : φ} (h : e.checkIsExplain = true ∧ e.built = some B) (c : Call φ ρ) :
    (e.call needs c).1.checkIsExplain = true ∧ (e.call needs c).1.built = some B := by
  cases c <;> try exact h
  case fit d F => cases F <;> exact h
  case explain =>
    unfold Explainer.call Explainer.explain
    simp only
    split
    · exact h
    · rw [if_pos h.1, h.2]
      exact h

theorem call_unbuilt (needs : φ → Nat) {e : Explainer φ ρ} (h : e.checkIsExplain = false) {c : Call φ ρ} (hc : c ≠ .explain) :
    (e.call needs c).1.checkIsExplain = false := by
  cases c <;> try exact h
  case fit d F => cases F <;> exact h
  case explain => exact absurd rfl hc

theorem after_built (needs : φ → Nat) (g : List (Call φ ρ)) : ∀ {e : Explainer φ ρ} {B : φ}, e.checkIsExplain = true ∧ e.built = some B →
    (g.foldl (fun e c => (e.call needs c).1) e).checkIsExplain = true ∧
    (g.foldl (fun e c => (e.call needs c).1) e).built = some B := by
  induction g with
  | nil => exact fun h => h
  | cons c g ih => exact fun h => ih (call_built needs h c)

theorem after_unbuilt (needs : φ → Nat) (g : List (Call φ ρ)) (hg : Call.explain ∉ g) : ∀ {e : Explainer φ ρ}, e.checkIsExplain = false →
    (g.foldl (fun e c => (e.call needs c).1) e).checkIsExplain = false := by
  induction g with
  | nil => exact fun h => h
  | cons c g ih =>
    intro e h
    rw [List.mem_cons, not_or] at hg
    exact ih hg.2 (call_unbuilt needs h (fun hc => hg.1 hc.symm))

theorem after_model_keep (needs : φ → Nat) (g : List (Call φ ρ)) (hg : NeverFit g) : ∀ (e : Explainer φ ρ),
    (g.foldl (fun e c => (e.call needs c).1) e).model = e.model := by
  induction g with
  | nil => exact fun e => rfl
  | cons c g ih =>
    intro e
    rw [List.foldl_cons, ih fun d F h => hg d F (List.mem_cons_of_mem _ h), call_model]
    split
    · next d F => exact absurd List.mem_cons_self (hg d F)
    · rfl

theorem after_d_keep (needs : φ → Nat) (g : List (Call φ ρ)) (h1 : NeverFit g) (h2 : NoFailedFit g) : ∀ (e : Explainer φ ρ),
    (g.foldl (fun e c => (e.call needs c).1) e).d = e.d := by
  induction g with
  | nil => exact fun e => rfl
  | cons c g ih =>
    intro e
    rw [List.foldl_cons, ih (fun d F h => h1 d F (List.mem_cons_of_mem _ h)) (fun d h => h2 d (List.mem_cons_of_mem _ h)), call_d]
    split
    · next d F =>
      cases F with
      | none => exact absurd List.mem_cons_self (h2 d)
      | some F => exact absurd List.mem_cons_self (h1 d F)
    · rfl

theorem after_model (needs : φ → Nat) (cl : Bool) {h : List (Call φ ρ)} {d : Nat} {F : φ} (hl : LastFit h d F) :
    (Explainer.after needs cl h).model = some F := by
  obtain ⟨before, later, rfl, hn⟩ := hl
  rw [after_append, List.foldl_cons, after_model_keep needs later hn, call_model]

theorem after_d (needs : φ → Nat) (cl : Bool) {h : List (Call φ ρ)} {d : Nat} {F : φ} (hl : LastFit h d F) (hf : NoFailedFit h) :
    (Explainer.after needs cl h).d = some d := by
  obtain ⟨before, later, rfl, hn⟩ := hl
  rw [after_append, List.foldl_cons, after_d_keep needs later hn (fun d hd => hf d (by simp [hd])), call_d]

/-- **C41, `predict`.** `predict` answers with the forest of the last successful fit, whatever happened before. -/
theorem C41_predict (needs : φ → Nat) (cl : Bool) {h : List (Call φ ρ)} {d : Nat} {F : φ} (hl : LastFit h d F) :
    answer needs cl h .predict = .predicted F := by
  unfold answer Explainer.call Explainer.predict
  rw [after_model needs cl hl]

/-- **C41, not fitted.** Without a successful fit both `predict` and every explanation raise `NotFittedError`. -/
theorem C41_not_fitted (needs : φ → Nat) (cl : Bool) {h : List (Call φ ρ)} (hn : NeverFit h) :
    answer needs cl h .predict = .raised "NotFittedError" ∧ answer needs cl h .explain = .raised "NotFittedError" := by
  have hm : (Explainer.after needs cl h).model = none := by
    have := after_model_keep needs h hn { classifier := cl }
    exact this
  unfold answer Explainer.call Explainer.predict Explainer.explain
  simp only [hm, and_self]

/-- The claim of C41: an explanation uses the forest of the last successful fit, for its cells and for its quantiles. -/
def C41_claim (φ ρ : Type) : Prop :=
  ∀ (needs : φ → Nat) (cl : Bool) (h : List (Call φ ρ)) (d : Nat) (F : φ), Sound needs h → NoFailedFit h → LastFit h d F →
    answer needs cl h .explain = .explained F F

theorem explain_fresh (needs : φ → Nat) (cl : Bool) {h : List (Call φ ρ)} {d : Nat} {F : φ} (hs : Sound needs h) (hf : NoFailedFit h)
    (hl : LastFit h d F) (hn : Call.explain ∉ h) :
    (Explainer.after needs cl h).call needs .explain =
      ({ Explainer.after needs cl h with built := some F, checkIsExplain := true }, .explained F F) := by
  have hu : (Explainer.after needs cl h).checkIsExplain = false := after_unbuilt needs h hn rfl
  have hd := after_d needs cl hl hf
  have hneeds : needs F ≤ d := by
    obtain ⟨before, later, rfl, -⟩ := hl
    exact hs d F (by simp)
  unfold Explainer.call Explainer.explain
  simp only [after_model needs cl hl, hu, hd]
  unfold buildForest
  rw [if_pos hneeds]
  rfl

/-- **C41, what happens.** The forest of the first explanation gives the cells of every later one, while the quantiles and `predict` follow
the last fit. -/
theorem C41_frozen (needs : φ → Nat) (cl : Bool) {p g : List (Call φ ρ)} {d d' : Nat} {F F' : φ} (hs : Sound needs p) (hf : NoFailedFit p)
    (hl : LastFit p d F) (hn : Call.explain ∉ p) (hl' : LastFit (p ++ .explain :: g) d' F') :
    answer needs cl (p ++ .explain :: g) .explain = .explained F F' ∧ answer needs cl (p ++ .explain :: g) .predict = .predicted F' := by
  refine ⟨?_, C41_predict needs cl hl'⟩
  have hm := after_model needs cl hl'
  have hb : (Explainer.after needs cl (p ++ .explain :: g)).checkIsExplain = true ∧
      (Explainer.after needs cl (p ++ .explain :: g)).built = some F := by
    rw [after_append, List.foldl_cons, explain_fresh needs cl hs hf hl hn]
    exact after_built needs g ⟨rfl, rfl⟩
  unfold answer Explainer.call Explainer.explain
  simp only [hm, hb.1, hb.2, if_true]

/-- **C41 is false.** `fit`, an explanation, `fit` again: the next explanation still uses the cells of the first forest. -/
theorem C41_false : ¬ C41_claim Bool Unit := by
  intro h
  have := h (fun _ => 1) true [.fit 1 (some false), .explain, .fit 1 (some true)] 1 true
    (by intro d F hm; simp at hm; show 1 ≤ d; omega) (by intro d hm; simp at hm)
    ⟨[.fit 1 (some false), .explain], [], rfl, by simp⟩
  revert this
  decide +kernel

/-- The witness for `C41_frozen`: the two answers name different forests. -/
example : answer (φ := Bool) (ρ := Unit) (fun _ => 1) false [.fit 1 (some false), .explain, .fit 1 (some true)] .explain = .explained false true ∧
    answer (φ := Bool) (ρ := Unit) (fun _ => 1) false [.fit 1 (some false), .explain, .fit 1 (some true)] .predict = .predicted true := by
  decide +kernel

theorem lastFit_append {p g : List (Call φ ρ)} {d : Nat} {F : φ} (hl : LastFit p d F) (hg : NeverFit g) : LastFit (p ++ g) d F := by
  obtain ⟨before, later, rfl, hn⟩ := hl
  refine ⟨before, later ++ g, by simp, fun d' F' h => ?_⟩
  rcases List.mem_append.1 h with h | h
  · exact hn d' F' h
  · exact hg d' F' h

/-- **C41 (partial).** When no fit follows an explanation, explanations use the forest of the last fit, for the cells and for the
quantiles. Missing: a fit after an explanation (`C41_false`), for which the user has to create a new object. -/
theorem C41_partial (needs : φ → Nat) (cl : Bool) {p g : List (Call φ ρ)} {d : Nat} {F : φ} (hs : Sound needs p)
    (hf : NoFailedFit (p ++ g)) (hl : LastFit p d F) (hn : Call.explain ∉ p) (hg : NeverFit g) :
    answer needs cl (p ++ g) .explain = .explained F F := by
  have hsound : ∀ g', (∀ c ∈ g', c ∈ g) → Sound needs (p ++ g') := by
    intro g' hg' d' F' h
    rcases List.mem_append.1 h with h | h
    · exact hs d' F' h
    · exact absurd (hg' _ h) (hg d' F')
  classical
  by_cases he : Call.explain ∈ g
  · obtain ⟨g1, g2, rfl, hg1⟩ := List.eq_append_cons_of_mem he
    have hl1 : LastFit (p ++ g1) d F := lastFit_append hl fun d F h => hg d F (List.mem_append_left _ h)
    have := (C41_frozen needs cl (p := p ++ g1) (g := g2) (hsound g1 fun c hc => List.mem_append_left _ hc)
      (fun d h => hf d (by
        rcases List.mem_append.1 h with h | h
        · exact List.mem_append_left _ h
        · exact List.mem_append_right _ (List.mem_append_left _ h)))
      hl1 (by rw [List.mem_append, not_or]; exact ⟨hn, hg1⟩)
      (by rw [List.append_assoc]; exact lastFit_append hl hg)).1
    rw [List.append_assoc] at this
    exact this
  · have := explain_fresh needs cl (hsound g fun c hc => hc) hf (lastFit_append hl hg) (by rw [List.mem_append, not_or]; exact ⟨hn, he⟩)
    unfold answer
    rw [this]

/-- A history with two fits, failed arguments, rules and explanations that meets the hypotheses of `C41_partial`. -/
example : answer (φ := Bool) (ρ := Unit) (fun _ => 1) false
    ([.fit 2 (some false), .badArgs, .fit 1 (some true)] ++ [.predict, .explain, .fitRules (), .explain]) .explain = .explained true true := by
  exact C41_partial _ _ (d := 1) (by intro d F hm; simp at hm; show 1 ≤ d; omega) (by intro d hm; simp at hm)
    ⟨[.fit 2 (some false), .badArgs], [], rfl, by simp⟩ (by simp) (by intro d F hm; simp at hm)

/-- **C41, failed fit.** A fit that raises still changes the number of columns: with fewer columns than the forest needs, the first
explanation raises although `predict` answers. -/
theorem C41_failed_fit (needs : φ → Nat) (cl : Bool) {h : List (Call φ ρ)} {d d' : Nat} {F : φ} (hl : LastFit h d F)
    (hn : Call.explain ∉ h) (hd : d' < needs F) :
    answer needs cl (h ++ [.fit d' none]) .predict = .predicted F ∧
    answer needs cl (h ++ [.fit d' none]) .explain = .raised "IndexError" := by
  have hl' : LastFit (h ++ [.fit d' none]) d F := lastFit_append hl (by intro d F h; simp at h)
  refine ⟨C41_predict needs cl hl', ?_⟩
  have hu : (Explainer.after needs cl (h ++ [.fit d' none])).checkIsExplain = false :=
    after_unbuilt needs _ (by rw [List.mem_append, not_or]; exact ⟨hn, by simp⟩) rfl
  have hdd : (Explainer.after needs cl (h ++ [.fit d' none])).d = some d' := by
    rw [after_snoc, call_d]
  unfold answer Explainer.call Explainer.explain
  have hb : buildForest needs F d' = .error "IndexError" := if_neg (by omega)
  simp only [after_model needs cl hl', hu, hdd, hb]
  rfl

example : answer (φ := Bool) (ρ := Unit) (fun _ => 3) true [.fit 3 (some true), .fit 2 none] .explain = .raised "IndexError" ∧
    answer (φ := Bool) (ρ := Unit) (fun _ => 3) true [.fit 3 (some true), .explain, .fit 2 none] .explain = .explained true true := by
  decide +kernel

theorem after_rules (needs : φ → Nat) (cl : Bool) {h : List (Call φ ρ)} :
    (∀ R, LastRules h R → (Explainer.after needs cl h).rules = some R ∧ (Explainer.after needs cl h).checkIsGlobalrule = true) ∧
    ((∀ R, Call.fitRules R ∉ h) → (Explainer.after needs cl h).checkIsGlobalrule = false) ∧
    (Explainer.after needs cl h).classifier = cl := by
  have keep : ∀ (g : List (Call φ ρ)), (∀ R, Call.fitRules R ∉ g) → ∀ e : Explainer φ ρ,
      (g.foldl (fun e c => (e.call needs c).1) e).rules = e.rules ∧
      (g.foldl (fun e c => (e.call needs c).1) e).checkIsGlobalrule = e.checkIsGlobalrule := by
    intro g
    induction g with
    | nil => exact fun _ e => ⟨rfl, rfl⟩
    | cons c g ih =>
      intro hg e
      have := ih (fun R h => hg R (List.mem_cons_of_mem _ h)) (e.call needs c).1
      rw [List.foldl_cons, this.1, this.2, (call_rules needs e c).1, (call_rules needs e c).2]
      cases c <;> try exact ⟨rfl, rfl⟩
      case fitRules R => exact absurd List.mem_cons_self (hg R)
  refine ⟨?_, ?_, ?_⟩
  · rintro R ⟨before, later, rfl, hn⟩
    rw [after_append, List.foldl_cons]
    rw [(keep later hn _).1, (keep later hn _).2, (call_rules needs _ _).1, (call_rules needs _ _).2]
    exact ⟨rfl, rfl⟩
  · intro hn
    exact (keep h hn { classifier := cl }).2
  · unfold Explainer.after
    generalize he : ({ classifier := cl } : Explainer φ ρ) = e
    have hc : e.classifier = cl := by rw [← he]
    clear he
    induction h generalizing e with
    | nil => exact hc
    | cons c h ih => exact ih (e.call needs c).1 (by rw [call_classifier, hc])

/-- **C41, global rules.** `predict_global_rules` uses the rules of the last `fit_global_rules` of the history, and raises when there was
none; `predict_proba_global_rules` does the same for a classifier and raises `ValueError` otherwise. No other call changes this. -/
theorem C41_rules (needs : φ → Nat) (cl : Bool) (h : List (Call φ ρ)) :
    (∀ R, LastRules h R → answer needs cl h .predictRules = .ruled R ∧
      answer needs cl h .predictProbaRules = if cl then .ruled R else .raised "ValueError") ∧
    ((∀ R, Call.fitRules R ∉ h) → answer needs cl h .predictRules = .raised "NotFittedError" ∧
      answer needs cl h .predictProbaRules = .raised "NotFittedError") := by
  obtain ⟨h1, h2, h3⟩ := after_rules needs cl (h := h)
  constructor
  · intro R hR
    obtain ⟨a, b⟩ := h1 R hR
    unfold answer Explainer.call Explainer.predictProbaRules Explainer.predictRules
    simp only [a, b, h3, if_true, not_true_eq_false, if_false]
    cases cl <;> simp
  · intro hn
    have b := h2 hn
    unfold answer Explainer.call Explainer.predictProbaRules Explainer.predictRules
    simp [b]

example : LastRules (φ := Bool) [.fit 1 (some true), .fitRules 3, .explain, .fitRules 5, .fit 1 (some false)] (5 : Nat) :=
  ⟨[.fit 1 (some true), .fitRules 3, .explain], [.fit 1 (some false)], rfl, by simp⟩

end Acv
