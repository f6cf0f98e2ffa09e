/-!
# The state of an `ACXplainer`

Models the attributes that `ACXplainer` (/repo/acv_explainers/acv_agnosticX.py:16-231) keeps between calls.

Simplifications: a fitted forest is an element of an arbitrary type `φ` and a fitted rule model of an arbitrary type `ρ`, because the
question is only which one a call uses. `needs F` is the number of columns the splits of `F` refer to. An explanation is represented by the
forest that gives the projected cells and the forest that gives the quantiles `t` of a regression.
-/

namespace Acv

/-- The calls of a user. `fit d none` is a call of `fit` in which the ranger forest raises; `badArgs` is any call rejected by
`check_X_y` or `check_array` before the object is touched. -/
inductive Call (φ ρ : Type) where
  | fit (d : Nat) (forest : Option φ)
  | badArgs
  | explain
  | predict
  | fitRules (rules : ρ)
  | predictRules
  | predictProbaRules
deriving DecidableEq

/-- What a call shows. -/
inductive Answer (φ ρ : Type) where
  | done
  | raised (exception : String)
  | predicted (forest : φ)
  | explained (cells quantiles : φ)
  | ruled (rules : ρ)
deriving DecidableEq

/-- The attributes `model`, `d`, `check_is_explain`, `ACXplainer`, `check_is_globalrule` and the `rules_*`, acv_agnosticX.py:76-137. -/
structure Explainer (φ ρ : Type) where
  classifier : Bool
  model : Option φ := none
  d : Option Nat := none
  checkIsExplain : Bool := false
  built : Option φ := none
  checkIsGlobalrule : Bool := false
  rules : Option ρ := none

variable {φ ρ : Type}

/-- `BaseAgnosTree(self.model, self.d)`, base_agnostree.py:23-173: `partition_leaf` has `data_dim` entries and is indexed by the split
features, so a feature outside raises. -/
def buildForest (needs : φ → Nat) (F : φ) (d : Nat) : Except String φ := if needs F ≤ d then .ok F else .error "IndexError"

/-- `fit`, acv_agnosticX.py:139-162: `self.d` is set before the forest is fitted. -/
def Explainer.fit (e : Explainer φ ρ) (d : Nat) (forest : Option φ) : Explainer φ ρ × Answer φ ρ :=
  match forest with
  | none => ({ e with d := some d }, .raised "ranger")
  | some F => ({ e with d := some d, model := some F }, .done)

/-- `check_is_explainer` followed by the estimation, acv_agnosticX.py:225-231 and e.g. 267-276: `t` comes from `self.model`, the cells from
`self.ACXplainer`. -/
def Explainer.explain (needs : φ → Nat) (e : Explainer φ ρ) : Explainer φ ρ × Answer φ ρ :=
  match e.model with
  | none => (e, .raised "NotFittedError")
  | some F =>
    if e.checkIsExplain then
      match e.built with
      | none => (e, .raised "AttributeError")
      | some B => (e, .explained B F)
    else
      match e.d with
      | none => (e, .raised "TypeError")
      | some d =>
        match buildForest needs F d with
        | .error s => (e, .raised s)
        | .ok B => ({ e with built := some B, checkIsExplain := true }, .explained B F)

/-- `predict`, acv_agnosticX.py:187-192. -/
def Explainer.predict (e : Explainer φ ρ) : Answer φ ρ :=
  match e.model with
  | none => .raised "NotFittedError"
  | some F => .predicted F

/-- `predict_global_rules`, acv_agnosticX.py:202-212. -/
def Explainer.predictRules (e : Explainer φ ρ) : Answer φ ρ :=
  if e.checkIsGlobalrule then
    match e.rules with
    | none => .raised "TypeError"
    | some R => .ruled R
  else .raised "NotFittedError"

/-- `predict_proba_global_rules`, acv_agnosticX.py:214-223. -/
def Explainer.predictProbaRules (e : Explainer φ ρ) : Answer φ ρ :=
  if ¬ e.checkIsGlobalrule then .raised "NotFittedError"
  else if ¬ e.classifier then .raised "ValueError"
  else e.predictRules

/-- One call. `fit_global_rules` is acv_agnosticX.py:164-185. -/
def Explainer.call (needs : φ → Nat) (e : Explainer φ ρ) : Call φ ρ → Explainer φ ρ × Answer φ ρ
  | .fit d forest => e.fit d forest
  | .badArgs => (e, .raised "ValueError")
  | .explain => e.explain needs
  | .predict => (e, e.predict)
  | .fitRules R => ({ e with rules := some R, checkIsGlobalrule := true }, .done)
  | .predictRules => (e, e.predictRules)
  | .predictProbaRules => (e, e.predictProbaRules)

/-- The object after a history of calls, oldest first; it starts as `__init__` leaves it. -/
def Explainer.after (needs : φ → Nat) (classifier : Bool) (history : List (Call φ ρ)) : Explainer φ ρ :=
  history.foldl (fun e c => (e.call needs c).1) { classifier := classifier }

/-- The answer to a call made after the history. -/
def answer (needs : φ → Nat) (classifier : Bool) (history : List (Call φ ρ)) (c : Call φ ρ) : Answer φ ρ :=
  ((Explainer.after needs classifier history).call needs c).2

end Acv
