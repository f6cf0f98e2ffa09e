import Mathlib.Algebra.Order.Field.Rat

/-!
# Binomial coefficients and Shapley weights

Models `binomialC` / `_comb_int_long` and the coefficient loops of the leaf estimators.
-/

namespace Acv

/-- `ULONG_MAX` on the 64-bit platforms the package is built for. -/
def ulongMax : Nat := 2 ^ 64 - 1

/-- One iteration of the loop of `_comb_int_long`, /repo/acv_explainers/cyext_acv/cyext_acv.pyx:4016-4022:
`val *= M - j; val //= j` with `M = N + 1`. `val` is a C double; it is modelled by a natural number, so rounding above
2^53 is not modelled. -/
def combStep (N val j : Nat) : Nat := val * (N + 1 - j) / j

/-- `_comb_int_long`, /repo/acv_explainers/cyext_acv/cyext_acv.pyx:4000-4024. -/
def combIntLong (N k : Nat) : Nat :=
  if k > N ∨ N = ulongMax then 0
  else (List.range' 1 (min k (N - k))).foldl (combStep N) 1

/-- `binomialC`, /repo/acv_explainers/cyext_acv/cyext_acv.pyx:3994-3998: a `cpdef double` that falls off its end
returns `0.0`. -/
def binomialC (N k : Nat) : ℚ :=
  let r : ℚ := combIntLong N k
  if r ≠ 0 then r else 0

/-- The loop `for l in range(1, m - set_size): coef = (coef + C(m-set_size-1, l) / C(m-1, l+va_size)) if C(...) != 0
else 0`, /repo/acv_explainers/cyext_acv/cyext_acv.pyx:1462-1464. The conditional expression covers the whole sum. -/
def coefLoop (m setSize vaSize : Nat) : ℚ :=
  (List.range' 1 (m - setSize - 1)).foldl
    (fun coef l => if binomialC (m - 1) (l + vaSize) ≠ 0 then
        coef + binomialC (m - setSize - 1) l / binomialC (m - 1) (l + vaSize)
      else 0) 0

/-- `coef_0 = 1./binomialC(m-1, va_size) if binomialC(m-1, va_size) != 0 else 0`, cyext_acv.pyx:1466. -/
def coefZero (m vaSize : Nat) : ℚ :=
  if binomialC (m - 1) vaSize ≠ 0 then 1 / binomialC (m - 1) vaSize else 0

end Acv
