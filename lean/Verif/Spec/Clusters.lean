import Mathlib.Data.Rat.Defs
import Mathlib.Algebra.Order.Ring.Rat

/-! # Specification of the clusters of `local_sdp` -/

namespace Acv

/-- The value of the set is a number and at least the level. -/
def ReachesLevel (f : List Nat → Option ℚ) (p : ℚ) (S : List Nat) : Prop := ∃ v, f S = some v ∧ p ≤ v

/-- `S` is a non-empty part of `R` that reaches the level; no smaller one does; no part of the same size has a larger value. -/
structure BestSet (f : List Nat → Option ℚ) (p : ℚ) (R S : List Nat) : Prop where
  sub : S.Sublist R
  ne : S ≠ []
  best : ∃ v, f S = some v ∧ p ≤ v ∧ ∀ T, T.Sublist R → T.length = S.length → ∀ u, f T = some u → u ≤ v
  small : ∀ T, T.Sublist R → T ≠ [] → T.length < S.length → ¬ ReachesLevel f p T

/-- The clusters of `R`: a best set, then the clusters of what remains with the threshold multiplied by `decay`; or `R` itself when no part of
`R` reaches the level. -/
def Clustering (f : ℚ → List Nat → Option ℚ) (p decay : ℚ) : ℚ → List Nat → List (List Nat) → Prop
  | _, R, [] => R = []
  | thr, R, S :: cs =>
    (BestSet (f thr) p R S ∧ Clustering f p decay (thr * decay) (R.filter fun i => decide (i ∉ S)) cs) ∨
    (S = R ∧ R ≠ [] ∧ cs = [] ∧ ∀ T, T.Sublist R → T ≠ [] → ¬ ReachesLevel (f thr) p T)

end Acv
