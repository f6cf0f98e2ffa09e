import Verif.Model.Explainer

/-! # Specification for the histories of an explainer -/

namespace Acv

variable {φ ρ : Type}

/-- `F` is the forest of the last fit of the history that succeeded. -/
def LastFit (history : List (Call φ ρ)) (d : Nat) (F : φ) : Prop :=
  ∃ before later, history = before ++ .fit d (some F) :: later ∧ ∀ d' F', Call.fit d' (some F') ∉ later

/-- No fit of the history succeeded. -/
def NeverFit (history : List (Call φ ρ)) : Prop := ∀ d F, Call.fit d (some F) ∉ history

/-- No fit of the history raised inside the forest library. -/
def NoFailedFit (history : List (Call φ ρ)) : Prop := ∀ d, Call.fit d none ∉ history

/-- Every forest of the history splits on columns of the data it was fitted on. -/
def Sound (needs : φ → Nat) (history : List (Call φ ρ)) : Prop := ∀ d F, Call.fit d (some F) ∈ history → needs F ≤ d

/-- `R` is the rule model of the last `fit_global_rules`. -/
def LastRules (history : List (Call φ ρ)) (R : ρ) : Prop :=
  ∃ before later, history = before ++ .fitRules R :: later ∧ ∀ R', Call.fitRules R' ∉ later

end Acv
