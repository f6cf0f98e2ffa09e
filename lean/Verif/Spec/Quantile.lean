import Verif.Model.Quantile

/-!
# Specification for weighted percentiles

A sample is a pair (output, weight).
-/

namespace Acv

/-- The total weight. -/
def totalWeight (samples : List (ℚ × ℚ)) : ℚ := (samples.map Prod.snd).sum

/-- The weight of the outputs below `v`. -/
def weightBelow (samples : List (ℚ × ℚ)) (v : ℚ) : ℚ := ((samples.filter fun s => decide (s.1 < v)).map Prod.snd).sum

/-- The percentage of the weight below the sample, half of its own weight included. -/
def percentOf (samples : List (ℚ × ℚ)) (s : ℚ × ℚ) : ℚ := 100 * (weightBelow samples s.1 + s.2 / 2) / totalWeight samples

end Acv
