import Verif.Model.CrWorkflow

/-! # Specification for the stages of a `CR` object -/

namespace Acv

variable {X P S R G D : Type}

/-- The documented sequence for the observations `x`. -/
def localRun (x : List X) (p q r : P) : List (CrCall X P) := [.localSets x p, .localRules x q, .localSampling x r]

/-- The documented sequence for the regions of the observations `x`. -/
def regionalRun (x : List X) (g p q : P) : List (CrCall X P) := [.sufficientRules x g, .regionalSets p, .regionalRules q]

/-- The sets `ss`, rules `rr` and samples `dd` belong to the observations `x`: every rule is computed from its own observation and the set of
that observation, and so is every sample. `dd` has one list for each observation, empty when there is no rule. -/
structure LocalResult (e : CrEngine X P S R G D) (x : List X) (p q r : P) (ss : List S) (rr : List R) (dd : List (List D)) : Prop where
  sets : e.localSets x p = .ok ss
  sets_len : ss.length = x.length
  rules_len : rr.length = x.length
  samples_len : dd.length = x.length
  rules : ∀ (i : Nat) xi si ri, x[i]? = some xi → ss[i]? = some si → rr[i]? = some ri → e.localRule xi q i si = .ok ri
  samples : ∀ (i : Nat) xi si ri di, x[i]? = some xi → ss[i]? = some si → rr[i]? = some ri → dd[i]? = some di →
    if e.noRule ri = true then di = [] else ∃ d, di = [d] ∧ e.localSample r xi r i si ri = .ok d

/-- The regions `gs`, sets `ss` and rules `rr` belong to the observations `x`. -/
structure RegionalResult (e : CrEngine X P S R G D) (x : List X) (g p q : P) (gs : List G) (ss : List S) (rr : List R) : Prop where
  regions : e.regions x g = .ok gs
  regions_len : gs.length = x.length
  sets : e.regionalSets x gs p = .ok ss
  sets_len : ss.length = x.length
  rules_len : rr.length = x.length
  rules : ∀ (i : Nat) xi gi si ri, x[i]? = some xi → gs[i]? = some gi → ss[i]? = some si → rr[i]? = some ri →
    e.regionalRule xi p q i gi si = .ok ri

/-- The samples `dd` (one list for each region) belong to the test rows of the regions, scored by the isolation forest of the call `f`. -/
structure RegionalSamples (e : CrEngine X P S R G D) (f r : P) (gs : List G) (ss : List S) (rr : List R) (dd : List (List D)) : Prop where
  len : dd.length = rr.length
  none : ∀ (i : Nat) ri di, rr[i]? = some ri → dd[i]? = some di → e.noRule ri = true → di = []
  rows : ∀ (i : Nat) gi ri di, gs[i]? = some gi → rr[i]? = some ri → dd[i]? = some di → e.noRule ri = false →
    di.length = (e.tests r gi).length
  samples : ∀ (i : Nat) gi si ri di (k : Nat) z d, gs[i]? = some gi → ss[i]? = some si → rr[i]? = some ri → dd[i]? = some di →
    e.noRule ri = false → (e.tests r gi)[k]? = some z → di[k]? = some d → e.regionalSample f z r i k si ri = .ok d

/-- `f` is the last call of `run_sampling_local_counterfactuals` in the history. -/
def LastLocalSampling (h : List (CrCall X P)) (f : P) : Prop :=
  ∃ before x later, h = before ++ .localSampling x f :: later ∧ ∀ x' f', CrCall.localSampling x' f' ∉ later

/-- The history has no call of `run_sampling_local_counterfactuals`. -/
def NoLocalSampling (h : List (CrCall X P)) : Prop := ∀ x f, CrCall.localSampling x f ∉ h

end Acv
