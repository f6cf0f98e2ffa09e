import Verif.Model.Comb
import Mathlib.Data.Int.Log
import Mathlib.Data.Rat.Floor

/-!
# Binomial coefficients in double precision

`_comb_int_long` (/repo/acv_explainers/cyext_acv/cyext_acv.pyx:4000-4024) computes in a C `double`. Here the rounding is modelled.

Simplification: the exponent is unbounded, so there is no overflow to infinity and no underflow.
-/

namespace Acv

/-- Rounding to the nearest integer, ties to even. -/
def roundEven (q : ℚ) : Int :=
  let f := q.floor
  if q - f < 1 / 2 then f else if 1 / 2 < q - f then f + 1 else if f % 2 = 0 then f else f + 1

/-- Rounding a nonnegative number to a `double` (IEEE 754 binary64: 53 significant bits, to nearest, ties to even). -/
def toDouble (q : ℚ) : ℚ := if q ≤ 0 then 0 else roundEven (q / 2 ^ (Int.log 2 q - 52)) * 2 ^ (Int.log 2 q - 52)

/-- `val *= M - j; val //= j`, cyext_acv.pyx:4021-4022, with a rounding `rnd`: the integers `M - j` and `j` are converted to `double`, the product and
the quotient are rounded, and `//` takes the floor of the quotient. -/
def combStepRnd (rnd : ℚ → ℚ) (N : Nat) (val : ℚ) (j : Nat) : ℚ :=
  ((rnd (rnd (val * rnd ((N + 1 - j : Nat) : ℚ)) / rnd j)).floor : ℚ)

/-- `_comb_int_long`, cyext_acv.pyx:4000-4024, with a rounding `rnd`. -/
def combRnd (rnd : ℚ → ℚ) (N k : Nat) : ℚ :=
  if k > N ∨ N = ulongMax then 0 else (List.range' 1 (min k (N - k))).foldl (combStepRnd rnd N) 1

/-- `binomialC`, cyext_acv.pyx:3994-3998, in double precision. -/
def binomialD (N k : Nat) : ℚ :=
  let r := combRnd toDouble N k
  if r ≠ 0 then r else 0

end Acv
